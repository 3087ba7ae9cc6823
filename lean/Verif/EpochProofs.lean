import Verif.Epoch
import Verif.PenaltyProperties
import Verif.SessionHistory
import Verif.ElectionProperties
import Verif.ChainViews

/-! # Sessions, eras and slashes on the chain: what operations leave alone -/

namespace Verif.Epoch

open Verif

/-- What sessions read of the staking pallet. -/
def era (c : Chain.State) := Session.ctl (Chain.stkOn c).dele

/-- What sessions read of slashing. -/
def bonds (c : Chain.State) : Option Nat × List (Nat × Nat) := (c.slash.active, c.slash.bondedEras)

/-! ### Operations of the chain -/

theorem ctl_any {cfg : StakingCredit.Cfg} {u t : StakingCredit.State} {who : AccId} {order : List AccId}
    (h : StakingCredit.delegateAny cfg u who order = .ok t) : Session.ctl t.dele = Session.ctl u.dele := by
  unfold StakingCredit.delegateAny at h
  split at h
  · cases h
  · rename_i d hd
    cases h
    show Session.ctl d = _
    have := Session.ctl_other cfg.dele { u.dele with block := u.credit.block } (.delegateAny who order (Credit.passThreshold cfg.credit u.credit who)) rfl
    simp only [Delegation.step, Delegation.body, hd, Except.map] at this
    exact this

theorem ctl_above {cfg : StakingCredit.Cfg} {u t : StakingCredit.State} {who : AccId} {dst : Nat} {order : List AccId}
    (h : StakingCredit.delegateAbove cfg u who dst order = .ok t) : Session.ctl t.dele = Session.ctl u.dele := by
  unfold StakingCredit.delegateAbove at h
  split at h
  · exact ctl_any h
  · cases h; rfl

theorem ctl_stake (cfg : StakingCredit.Cfg) (s : StakingCredit.State) (op : StakingCredit.Op) :
    Session.ctl (StakingCredit.step cfg s op).1.dele = Session.ctl s.dele := by
  cases op with
  | stake who signed dst order =>
    simp only [StakingCredit.step]
    split
    · rfl
    split
    · rfl
    rename_i s' h
    unfold StakingCredit.doStakingDelegate at h
    simp only at h
    split at h; · cases h
    split at h; · cases h
    split at h
    · cases h
    split at h; · cases h
    generalize ((Credit.creditBalance s.credit who (some s.credit.defaultCampaign)).getD dst 0 - _) = v at h
    cases hp : StakingCredit.pay cfg s who v with
    | error e => rw [hp] at h; cases h
    | ok s1 =>
      rw [hp] at h
      simp only [Except.bind] at h
      split at h
      · cases h
      rename_i s2 h2
      unfold StakingCredit.pay at hp
      split at hp
      · cases hp
      cases hp
      obtain ⟨_, e2⟩ := Chain.addCredit_block h2
      rw [ctl_above h, e2]
      rfl
  | usdt admin who u d order =>
    simp only [StakingCredit.step]
    split
    · rfl
    split
    · rfl
    rename_i s' lvl h
    unfold StakingCredit.doUsdt at h
    simp only at h
    split at h; · cases h
    split at h
    · cases h
    rename_i cur rem _
    generalize StakingCredit.climb _ _ _ _ _ = dst at h
    cases h1 : StakingCredit.addCredit cfg s who (Credit.Level.gap (Credit.Level.ofU8 dst) (Credit.Level.ofU8 cur)) s.credit.defaultUsdtCampaign with
    | error e => rw [h1] at h; cases h
    | ok s1 =>
      rw [h1] at h
      simp only [Except.bind] at h
      obtain ⟨t, ht, e⟩ := World.map_ok h
      cases e
      obtain ⟨_, e2⟩ := Chain.addCredit_block h1
      rw [ctl_above ht]
      show Session.ctl s1.dele = _
      rw [e2]
  | unset admin who =>
    simp only [StakingCredit.step]
    split <;> rfl

/-- Operations of the chain which leave eras alone. -/
def keeps : Chain.Op → Bool
  | .dele op => Session.isOther op
  | _ => true

theorem ctl_congr {c c' : Chain.State} (h : c'.stk.dele = c.stk.dele) (h' : c'.w.ledger.era = c.w.ledger.era) : era c' = era c := by
  show (c'.w.ledger.era, c'.stk.dele.points, c'.stk.dele.erasValidators, c'.stk.dele.historyDepth, c'.stk.dele.stakers) = _
  rw [h, h']; rfl

theorem era_slashing (sc : Slashing.Cfg) : Chain.Carries sc fun a b => b.era = a.era := by
  refine ⟨fun _ => rfl, fun h h' => h'.trans h, fun _ _ => rfl, fun s u => ?_⟩
  refine Chain.applySlash_carries (lc := sc.led) (R := fun a b => b.era = a.era) (sc := sc) ⟨fun _ => rfl, fun h h' => h'.trans h, fun _ _ _ => rfl, fun s a v => ?_⟩ rfl s u
  have := (Ledger.step_era_eq sc.led s (.slash a v)).resolve_left (by intro h; cases h)
  exact this

theorem era_step (cfg : Chain.Cfg) (c : Chain.State) (op : Chain.Op) (hk : keeps op = true) : era (Chain.step cfg c op) = era c := by
  cases op with
  | world op =>
    simp only [Chain.step]
    split
    · refine ctl_congr rfl ?_
      show (World.effect cfg.world c.w op).ledger.era = _
      rename_i hw
      cases op with
      | ledger o =>
        cases o with
        | external b oo cl => rfl
        | _ => cases hw
      | unlockStake r a => cases r <;> rfl
      | hold a v => simp only [World.effect]; split <;> rfl
      | release a v => simp only [World.effect]; split <;> rfl
      | unlockVote r a => simp only [World.effect]; split <;> rfl
      | unlockMove r x y v => simp only [World.effect]; split <;> rfl
      | _ => rfl
    · rfl
  | bond op n =>
    simp only [Chain.step]
    split
    · rename_i ho
      refine ctl_congr rfl ?_
      show (Slashing.ledgerCall cfg.offences { c.slash with led := Chain.led c } op n).1.led.era = _
      rw [Chain.bond_led]
      refine (Ledger.step_era_eq _ _ _).resolve_left ?_
      cases op <;> first | (simp [Slashing.withSpans]; done) | cases ho
    · rfl
  | dele op =>
    simp only [Chain.step]
    split
    · exact Session.ctl_other cfg.dele (Chain.stkOn c).dele op hk
    · rfl
  | stake op => exact ctl_stake cfg.stake (Chain.stkOn c) op
  | credit op =>
    simp only [Chain.step]
    split <;> exact ctl_congr rfl rfl
  | slash op =>
    simp only [Chain.step]
    split
    · rename_i ho
      exact ctl_congr rfl (Chain.slash_carries (era_slashing cfg.offences) { c.slash with led := Chain.led c } op ho)
    · rfl
  | adsc op =>
    simp only [Chain.step]
    split <;> exact ctl_congr rfl rfl

theorem era_call (cfg : Chain.Cfg) (c : Chain.State) (op : Chain.Op) (hk : keeps op = true) : era (Payout.call cfg c op) = era c := by
  refine Eq.trans (b := era (Chain.step cfg c (Payout.fill cfg c op))) ?_ (era_step cfg c _ ?_)
  · exact ctl_congr rfl rfl
  · unfold Payout.fill
    split
    · rfl
    · exact hk

theorem slash_eras (cfg : Slashing.Cfg) (s : Slashing.State) (op : Slashing.Op) (h : ∀ n, op ≠ .startEra n) :
    (Slashing.step cfg s op).1.active = s.active ∧ (Slashing.step cfg s op).1.bondedEras = s.bondedEras := by
  cases op with
  | ledger op n =>
    simp only [Slashing.step, Slashing.ledgerCall]
    split
    · exact ⟨rfl, rfl⟩
    · exact ⟨(Slashing.clearStash_fields _ _).1, (Slashing.clearStash_fields _ _).2.1⟩
  | startEra n => exact absurd rfl (h n)
  | offence i j v f rs =>
    have hc := Slashing.onOffence_cases cfg s i j v f rs
    simp only [Slashing.step]
    generalize Slashing.onOffence cfg s i j v f rs = x at hc
    cases hc with
    | ignored s' q h1 hq => subst h1; exact ⟨rfl, rfl⟩
    | quiet n e hn he hi hc =>
      have hf := Slashing.computeSlash_frame cfg { s with earliest := some (s.earliest.getD n) } v f e (Slashing.window cfg n) n
      exact ⟨hf.active, hf.bondedEras⟩
    | slashed n e u hn he hi hc =>
      have hf := Slashing.computeSlash_frame cfg { s with earliest := some (s.earliest.getD n) } v f e (Slashing.window cfg n) n
      obtain ⟨e1, e2, _⟩ := Slashing.enqueue_fields cfg
        (Slashing.computeSlash cfg { s with earliest := some (s.earliest.getD n) } v f e (Slashing.window cfg n) n).1 n { u with reporters := rs }
      exact ⟨e1.trans hf.active, e2.trans hf.bondedEras⟩
  | cancel k e idx =>
    simp only [Slashing.step]
    split
    · rename_i s' hc
      obtain ⟨_, _, _, _, rfl⟩ := Slashing.cancel_ok hc
      exact ⟨rfl, rfl⟩
    · exact ⟨rfl, rfl⟩
  | setInvulnerables l => exact ⟨rfl, rfl⟩
  | setRewardProp q => exact ⟨rfl, rfl⟩

/-- Operations of the chain which start no era. -/
def holds : Chain.Op → Bool
  | .slash (.startEra _) => false
  | _ => true

theorem bonds_step (cfg : Chain.Cfg) (c : Chain.State) (op : Chain.Op) (hk : holds op = true) : bonds (Chain.step cfg c op) = bonds c := by
  cases op with
  | bond op n =>
    simp only [Chain.step]
    split
    · have := slash_eras cfg.offences { c.slash with led := Chain.led c } (.ledger op n) (by intro n h; cases h)
      exact Prod.ext this.1 this.2
    · rfl
  | slash op =>
    simp only [Chain.step]
    split
    · have := slash_eras cfg.offences { c.slash with led := Chain.led c } op (by rintro n rfl; cases hk)
      exact Prod.ext this.1 this.2
    · rfl
  | world op => simp only [Chain.step]; split <;> rfl
  | dele op => simp only [Chain.step]; split <;> rfl
  | _ => rfl

theorem bonds_call (cfg : Chain.Cfg) (c : Chain.State) (op : Chain.Op) (hk : holds op = true) : bonds (Payout.call cfg c op) = bonds c := by
  refine Eq.trans (b := bonds (Chain.step cfg c (Payout.fill cfg c op))) rfl (bonds_step cfg c _ ?_)
  unfold Payout.fill
  split
  · rfl
  · exact hk

theorem payLoop_ctl {cfg : StakingCredit.Cfg} {k : Credit.State} {e : Nat} : ∀ (n : Nat) (x y : Payout.Loop),
    Payout.payLoop cfg k e n x = .ok y → Session.ctl y.l.s = Session.ctl x.l.s := by
  intro n
  induction n with
  | zero => intro x y h; unfold Payout.payLoop at h; cases h; rfl
  | succ n ih =>
    intro x y h
    unfold Payout.payLoop at h
    split at h
    · cases h; rfl
    split at h
    · cases h; rfl
    rename_i d _
    split at h
    · cases h
    rename_i r core hp
    have hc : Session.ctl r.1 = Session.ctl x.l.s := by
      unfold Payout.payDelegator at hp
      split at hp
      · cases hp; rfl
      · split at hp
        · cases hp
        · cases hp
          exact Session.ctl_payDelegator _ _ _ _ _
    simp only at h
    split at h
    · cases h; exact hc
    split at h
    · cases h; exact (Session.ctl_payReferer _ _ _ _).trans hc
    exact (ih _ _ h).trans ((Session.ctl_payReferer _ _ _ _).trans hc)

theorem era_block (cfg : Chain.Cfg) (c : Chain.State) : era (Payout.step cfg c .block).1 = era c ∧ bonds (Payout.step cfg c .block).1 = bonds c := by
  simp only [Payout.step]
  split
  · exact ⟨rfl, rfl⟩
  · rename_i s ps core e
    refine ⟨?_, rfl⟩
    show Session.ctl s = _
    unfold Payout.onBlock at e
    simp only at e
    split at e
    · cases e; rfl
    split at e
    · cases e; rfl
    unfold Payout.payDelegators at e
    split at e
    · cases e; rfl
    split at e
    · cases e
    · rename_i x hx
      cases e
      exact payLoop_ctl _ _ _ hx

theorem era_slashCredit {cfg : Chain.Cfg} {c t : Chain.State} {a : AccId} {n : Option Nat} (h : Penalty.slashCredit cfg c a n = some t) :
    era t = era c ∧ bonds t = bonds c := by
  unfold Penalty.slashCredit at h
  split at h
  · cases h
  · cases h; exact ⟨era_call cfg c _ rfl, bonds_call cfg c _ rfl⟩

theorem era_undelegate (cfg : Chain.Cfg) (c : Chain.State) (a : AccId) : era (Penalty.undelegate cfg c a) = era c ∧ bonds (Penalty.undelegate cfg c a) = bonds c :=
  ⟨era_call cfg c _ rfl, bonds_call cfg c _ rfl⟩

theorem era_creditSlashes {cfg : Chain.Cfg} : ∀ (l : List AccId) {c t : Chain.State}, Penalty.creditSlashes cfg c l = some t →
    era t = era c ∧ bonds t = bonds c := by
  intro l
  induction l with
  | nil => intro c t h; cases h; exact ⟨rfl, rfl⟩
  | cons a l ih =>
    intro c t h
    obtain ⟨u, hu, hl⟩ := Option.bind_eq_some_iff.1 (show (Penalty.creditSlash cfg c a).bind _ = some t from h)
    unfold Penalty.creditSlash at hu
    obtain ⟨v, hv, rfl⟩ := Option.map_eq_some_iff.1 hu
    obtain ⟨i1, i2⟩ := ih hl
    obtain ⟨j1, j2⟩ := era_slashCredit hv
    split at i1
    · rename_i hp; rw [if_pos hp] at i2; exact ⟨i1.trans j1, i2.trans j2⟩
    · rename_i hp; rw [if_neg hp] at i2
      obtain ⟨k1, k2⟩ := era_undelegate cfg v a
      exact ⟨i1.trans (k1.trans j1), i2.trans (k2.trans j2)⟩

theorem era_forced {cfg : Chain.Cfg} : ∀ (l : List (AccId × Nat)) {c t : Chain.State}, Penalty.forceUndelegates cfg c l = some t →
    era t = era c ∧ bonds t = bonds c := by
  intro l
  induction l with
  | nil => intro c t h; cases h; exact ⟨rfl, rfl⟩
  | cons x l ih =>
    intro c t h
    obtain ⟨u, hu, hl⟩ := Option.bind_eq_some_iff.1 (show (Penalty.slashCredit cfg c x.1 (some x.2)).bind _ = some t from h)
    obtain ⟨i1, i2⟩ := ih hl
    obtain ⟨j1, j2⟩ := era_slashCredit hu
    obtain ⟨k1, k2⟩ := era_undelegate cfg u x.1
    exact ⟨i1.trans (k1.trans j1), i2.trans (k2.trans j2)⟩

/-- Anything else on the chain leaves sessions and eras alone. -/
theorem era_other (cfg : Chain.Cfg) (c : Chain.State) (op : Penalty.Op) (ho : isOther op = true) :
    era (Penalty.step cfg c op).1 = era c ∧ bonds (Penalty.step cfg c op).1 = bonds c := by
  cases op with
  | pay op =>
    simp only [Penalty.step]
    split
    · rename_i hp
      cases op with
      | chain op =>
        simp only [Payout.step]
        split
        · refine ⟨era_call cfg c op ?_, bonds_call cfg c op ?_⟩
          · unfold keeps; split
            · exact ho
            · rfl
          · unfold holds; split
            · cases hp
            · rfl
        · exact ⟨rfl, rfl⟩
      | block => exact era_block cfg c
    · exact ⟨rfl, rfl⟩
  | startEra n => cases ho
  | offence => cases ho
  | forceUndelegate root l =>
    simp only [Penalty.step]
    split
    · exact ⟨rfl, rfl⟩
    · split
      · exact ⟨rfl, rfl⟩
      · rename_i t ht; exact era_forced l ht

/-- An offence leaves sessions and eras alone. -/
theorem era_offence (cfg : Chain.Cfg) (c : Chain.State) (i j : Nat) (v : AccId) (x : Slashing.Exposure) (f : Nat) (rs : List AccId) :
    era (Penalty.step cfg c (.offence i j v x f rs)).1 = era c ∧ bonds (Penalty.step cfg c (.offence i j v x f rs)).1 = bonds c := by
  have h1 := era_call (Penalty.here cfg x) c (.slash (.offence i j v f rs)) rfl
  have h2 := bonds_call (Penalty.here cfg x) c (.slash (.offence i j v f rs)) rfl
  simp only [Penalty.step]
  split
  · split
    · exact ⟨rfl, rfl⟩
    · rename_i t ht
      obtain ⟨i1, i2⟩ := era_creditSlashes _ ht
      exact ⟨i1.trans h1, i2.trans h2⟩
  · exact ⟨h1, h2⟩

/-- The start of an era, if the chain does not stop. -/
theorem era_start (cfg : Chain.Cfg) (c : Chain.State) (n : Nat) (h : (Penalty.step cfg c (.startEra n)).2 ≠ .halted) :
    era (Penalty.step cfg c (.startEra n)).1 = era c ∧
    bonds (Penalty.step cfg c (.startEra n)).1 =
      (some (Slashing.nextEra c.slash), (c.slash.bondedEras ++ [(Slashing.nextEra c.slash, n)]).drop (Slashing.prunedEras cfg.offences (Slashing.nextEra c.slash) (c.slash.bondedEras ++ [(Slashing.nextEra c.slash, n)])).length) := by
  have h1 := era_call cfg c (.slash (.startEra n)) rfl
  have h2 : bonds (Payout.call cfg c (.slash (.startEra n))) = bonds (Chain.step cfg c (.slash (.startEra n))) := rfl
  have h3 := Slashing.startEra_eras cfg.offences { c.slash with led := Chain.led c } n
  simp only [Penalty.step] at h ⊢
  split
  · rename_i hn; rw [hn] at h; exact absurd rfl h
  · rename_i t ht
    obtain ⟨i1, i2⟩ := era_creditSlashes _ ht
    refine ⟨i1.trans h1, i2.trans (h2.trans ?_)⟩
    exact Prod.ext h3.1 h3.2.1

/-! ### Sessions as `Session` sees them -/

/-- The same sessions and eras. -/
structure Like (a b : Session.State) : Prop where
  session : a.session = b.session
  active : a.active = b.active
  eraStart : a.eraStart = b.eraStart
  bonded : a.bonded = b.bonded
  force : a.force = b.force
  validators : a.validators = b.validators
  queued : a.queued = b.queued
  ctl : Session.ctl a.del = Session.ctl b.del

theorem Like.refl (a : Session.State) : Like a a := ⟨rfl, rfl, rfl, rfl, rfl, rfl, rfl, rfl⟩

theorem Like.at {a b : Session.State} (h : Like a b) {n : Nat} {st : Bool} {c k : Nat} (hb : Session.At b n st c k) : Session.At a n st c k := by
  refine ⟨h.active.trans hb.active, (Session.ctl_eq h.ctl).1.trans hb.era, hb.le, hb.le', ?_, fun e => ?_, fun e => ?_, fun e he => ?_⟩
  · rw [h.eraStart]; exact hb.start
  · rw [h.session]; exact hb.same e
  · rw [h.session]; exact hb.ahead e
  · rw [h.eraStart]; exact hb.none e he

theorem Like.hist {cfg : Session.Cfg} {a b : Session.State} (h : Like a b) {n : Nat} {σ : Nat → Nat} {P : Nat → Nat → Prop}
    (hb : Session.Hist cfg b n σ P) : Session.Hist cfg a n σ P := by
  obtain ⟨h1, h2, h3, h4, h5, h6⟩ := hb
  refine ⟨?_, h2, ?_, ?_, ?_, fun k e hp => ?_⟩
  · rw [(Session.ctl_eq h.ctl).2.2.2]; exact h1
  · rw [h.session]; exact h3
  · rw [h.eraStart]; exact h4
  · rw [h.bonded]; exact h5
  · rw [h.session]; exact h6 k e hp

theorem view_like {s t : State} (h1 : era t.c = era s.c) (h2 : bonds t.c = bonds s.c) (h3 : t.session = s.session) (h4 : t.started = s.started)
    (h5 : t.eraStart = s.eraStart) (h6 : t.force = s.force) (h7 : t.validators = s.validators) (h8 : t.queued = s.queued) : Like (view t) (view s) := by
  have e1 : t.c.slash.active = s.c.slash.active := congrArg Prod.fst h2
  have e2 : t.c.slash.bondedEras = s.c.slash.bondedEras := congrArg Prod.snd h2
  exact ⟨h3, by show t.c.slash.active.map _ = _; rw [e1, h4]; rfl, h5, e2, h6, h7, h8, h1⟩

theorem era_dele (cfg : Cfg) (c : Chain.State) (op : Delegation.Op) (ho : Session.isOther op = false) :
    bonds (dele cfg c op) = bonds c ∧ (Chain.deleOwn op = true → era (dele cfg c op) = Session.ctl (Delegation.step cfg.chain.dele (Chain.stkOn c).dele op).1) := by
  cases op with
  | endEra e => exact ⟨rfl, fun _ => rfl⟩
  | newEra o => exact ⟨rfl, fun _ => rfl⟩
  | addPoints e v n => exact ⟨rfl, fun _ => rfl⟩
  | configure e n m w d => exact ⟨rfl, fun _ => rfl⟩
  | ledger o => exact ⟨rfl, fun h => by cases h⟩
  | _ => cases ho

theorem like_end (cfg : Cfg) (s : State) : era (endSession cfg s).c = era s.c ∧ bonds (endSession cfg s).c = bonds s.c ∧
    endSession cfg s = { s with c := (endSession cfg s).c } := by
  unfold endSession
  split
  · rename_i e _
    obtain ⟨h1, h2⟩ := era_dele cfg s.c (.endEra e) rfl
    refine ⟨(h2 rfl).trans ?_, h1, rfl⟩
    exact Session.ctl_payValidators _ _ _
  · exact ⟨rfl, rfl, rfl⟩

/-- The start of a session. -/
theorem start_cases {cfg : Cfg} {s t : State} (h : startSession cfg s = some t) :
    ((s.eraStart.get (Session.nextActive (view s)) = none ∨ ∃ k, s.eraStart.get (Session.nextActive (view s)) = some k ∧ ¬ k ≤ s.session) ∧ t = s) ∨
    (∃ k, s.eraStart.get (Session.nextActive (view s)) = some k ∧ k ≤ s.session ∧ (Penalty.step cfg.chain s.c (.startEra s.session)).2 ≠ .halted ∧
      t = { s with c := (Penalty.step cfg.chain s.c (.startEra s.session)).1, started := false, roots := prune cfg (Penalty.step cfg.chain s.c (.startEra s.session)).1 s.roots }) := by
  unfold startSession at h
  split at h
  · rename_i e; cases h; exact .inl ⟨.inl e, rfl⟩
  · rename_i k e
    split at h
    · rename_i hk
      split at h
      · cases h
      · rename_i c o ho hc
        cases h
        refine .inr ⟨k, e, hk, ?_, ?_⟩
        · rw [hc]; exact fun hh => ho hh
        · rw [hc]
    · rename_i hk; cases h; exact .inl ⟨.inr ⟨k, e, hk⟩, rfl⟩

theorem prune_length (cfg : Cfg) (a : Nat) (l : List (Nat × Nat)) :
    (Slashing.prunedEras cfg.chain.offences a l).length = Session.pruneCount cfg.ses a l := by
  unfold Slashing.prunedEras Session.pruneCount
  show (if cfg.chain.world.ledger.bondingDuration < a then _ else _ : List (Nat × Nat)).length = if cfg.chain.world.ledger.bondingDuration < a then _ else _
  split <;> rfl

theorem newSession_like (cfg : Cfg) (s : State) (idx : Nat) (order : List AccId) :
    Like (view (newSession cfg s idx order).1) (Session.newSession cfg.ses (view s) idx order).1 ∧
    (newSession cfg s idx order).2 = (Session.newSession cfg.ses (view s) idx order).2 ∧
    (newSession cfg s idx order).1.roots = s.roots ∧ bonds (newSession cfg s idx order).1.c = bonds s.c := by
  refine ⟨?_, rfl, rfl, ?_⟩
  · cases hp : Session.plans cfg.ses (view s) idx with
    | false =>
      have e := Session.newSession_no (order := order) hp
      have e1 : (newSession cfg s idx order).1 = s := by
        unfold newSession
        simp only [hp, e]
        rfl
      rw [e1, e]
      exact Like.refl _
    | true =>
      have e : (newSession cfg s idx order).1 = { s with c := dele cfg s.c (.newEra order), force := (Session.newSession cfg.ses (view s) idx order).1.force, eraStart := (Session.newSession cfg.ses (view s) idx order).1.eraStart } := by
        unfold newSession
        simp only [hp, if_true]
      rw [e]
      have e2 : Session.newSession cfg.ses (view s) idx order = Session.newEra { view s with force := Session.forceAfter (view s) } idx order := by
        simp [Session.newSession, hp]
      rw [e2]
      obtain ⟨h1, h2⟩ := era_dele cfg s.c (.newEra order) rfl
      have e3 : (dele cfg s.c (.newEra order)).slash.active = s.c.slash.active := congrArg Prod.fst h1
      have e4 : (dele cfg s.c (.newEra order)).slash.bondedEras = s.c.slash.bondedEras := congrArg Prod.snd h1
      refine ⟨rfl, ?_, rfl, e4, rfl, rfl, rfl, h2 rfl⟩
      show (dele cfg s.c (.newEra order)).slash.active.map _ = s.c.slash.active.map _
      rw [e3]
  · show bonds (if Session.plans cfg.ses (view s) idx = true then _ else _) = _
    split
    · exact (era_dele cfg s.c (.newEra order) rfl).1
    · rfl

/-- A rotation is a rotation of `Session` after the slashes of the era that starts. -/
theorem rotate_like {cfg : Cfg} {s s' : State} {order : List AccId} {keys : AccId → Bool} {a : Nat} {st : Bool} {c k : Nat}
    (h : Session.At (view s) a st c k) (hr : rotate cfg s order keys = some s') :
    ∃ t u st', startSession cfg { endSession cfg s with session := s.session + 1, validators := s.queued } = some t ∧
      Like u { view s with active := some (a, st') } ∧ Session.mid cfg.ses u = view t ∧
      s' = { (newSession cfg t (s.session + 2) order).1 with roots := note (newSession cfg t (s.session + 2) order).1 (s.session + 2) keys (newSession cfg t (s.session + 2) order).2, queued := ((newSession cfg t (s.session + 2) order).2.getD s.queued).filter keys } ∧
      Like (view s') (Session.rotate cfg.ses u order keys) := by
  obtain ⟨t, ht, rfl⟩ := Option.map_eq_some_iff.1 hr
  obtain ⟨n1, n2, n3, n4⟩ := newSession_like cfg t (s.session + 2) order
  have key : ∀ u, Session.mid cfg.ses u = view t → u.session = s.session → u.queued = s.queued →
      Like (view { (newSession cfg t (s.session + 2) order).1 with roots := note (newSession cfg t (s.session + 2) order).1 (s.session + 2) keys (newSession cfg t (s.session + 2) order).2, queued := ((newSession cfg t (s.session + 2) order).2.getD s.queued).filter keys }) (Session.rotate cfg.ses u order keys) := by
    intro u hu h1 h2
    rw [Session.rotate_eq, hu, h1, h2]
    exact ⟨n1.session, n1.active, n1.eraStart, n1.bonded, n1.force, n1.validators, by rw [← n2]; rfl, n1.ctl⟩
  obtain ⟨e1, e2, e3⟩ := like_end cfg s
  generalize hc1 : (endSession cfg s).c = c1 at *
  have ht0 := ht
  rw [e3] at ht
  have hact : s.c.slash.active.map (·, s.started) = some (a, st) := h.active
  obtain ⟨a', ha', hast⟩ := Option.map_eq_some_iff.1 hact
  cases hast
  have ha1 : c1.slash.active = some a := (congrArg Prod.fst e2).trans ha'
  have hb1 : c1.slash.bondedEras = s.c.slash.bondedEras := congrArg Prod.snd e2
  have hna : Session.nextActive (view { s with c := c1, session := s.session + 1, validators := s.queued }) = a + 1 := by
    simp only [Session.nextActive, view, ha1, Option.map_some]
  rcases start_cases ht with ⟨hn, rfl⟩ | ⟨j, hj, hle, hh, rfl⟩
  · -- no era starts
    rw [hna] at hn
    have hca : c = a := by
      rcases Nat.lt_or_ge a c with hlt | hge
      · exfalso
        have hc : c = a + 1 := Nat.le_antisymm h.le' hlt
        have hs : s.eraStart.get (a + 1) = some k := by rw [← hc]; exact h.start
        have hk : k = s.session + 1 := h.ahead hc
        rcases hn with hn | ⟨j, hj, hn⟩
        · rw [show _ = _ from hs] at hn; cases hn
        · have : j = k := by
            have := hj.symm.trans hs
            exact Option.some.inj this
          exact hn (by show j ≤ s.session + 1; omega)
      · exact Nat.le_antisymm hge h.le
    have hs1 : s.eraStart.get (a + 1) = none := h.none (a + 1) (by omega)
    have hend : Session.ending (view s) s.session = none := by
      unfold Session.ending
      rw [h.active]
      simp only [show (view s).eraStart.get (a + 1) = none from hs1]
    have hc : c1 = s.c := by
      rw [← hc1]
      unfold endSession
      rw [hend]
    subst hc
    refine ⟨_, view s, s.started, ht0, ⟨rfl, h.active, rfl, rfl, rfl, rfl, rfl, rfl⟩, ?_, rfl, ?_⟩
    · unfold Session.mid
      have : Session.endSession cfg.ses (view s) (view s).session = view s := by
        unfold Session.endSession
        rw [show (view s).session = s.session from rfl, hend]
      rw [this]
      unfold Session.startSession
      have hna' : Session.nextActive { view s with session := (view s).session + 1, validators := (view s).queued } = a + 1 := by
        simp only [Session.nextActive, h.active]
      rw [hna', show ({ view s with session := (view s).session + 1, validators := (view s).queued } : Session.State).eraStart.get (a + 1) = none from hs1]
      rfl
    · refine key (view s) ?_ rfl rfl
      unfold Session.mid
      have : Session.endSession cfg.ses (view s) (view s).session = view s := by
        unfold Session.endSession
        rw [show (view s).session = s.session from rfl, hend]
      rw [this]
      unfold Session.startSession
      have hna' : Session.nextActive { view s with session := (view s).session + 1, validators := (view s).queued } = a + 1 := by
        simp only [Session.nextActive, h.active]
      rw [hna', show ({ view s with session := (view s).session + 1, validators := (view s).queued } : Session.State).eraStart.get (a + 1) = none from hs1]
      rfl
  · -- the planned era starts
    rw [hna] at hj
    have hj' : s.eraStart.get (a + 1) = some j := hj
    have hle' : j ≤ s.session + 1 := hle
    obtain ⟨f1, f2⟩ := era_start cfg.chain c1 (s.session + 1) hh
    generalize hc2 : (Penalty.step cfg.chain c1 (.startEra (s.session + 1))).1 = c2 at *
    have hne : Slashing.nextEra c1.slash = a + 1 := by simp only [Slashing.nextEra, ha1]
    rw [hne, hb1, prune_length] at f2
    have g1 : c2.slash.active = some (a + 1) := congrArg Prod.fst f2
    have g2 := congrArg Prod.snd f2
    simp only [bonds] at g2
    have hmid : Session.mid cfg.ses { view s with del := (Chain.stkOn c2).dele, active := some (a, false) } =
        view { s with c := c2, session := s.session + 1, started := false, validators := s.queued, roots := prune cfg c2 s.roots } := by
      unfold Session.mid
      have he : Session.endSession cfg.ses { view s with del := (Chain.stkOn c2).dele, active := some (a, false) } s.session =
          { view s with del := (Chain.stkOn c2).dele, active := some (a, false) } := by
        unfold Session.endSession
        split
        · rename_i e he
          exfalso
          unfold Session.ending at he
          simp only at he
          split at he
          · cases he
          · split at he
            · cases he
            · cases he
        · rfl
      rw [show ({ view s with del := (Chain.stkOn c2).dele, active := some (a, false) } : Session.State).session = s.session from rfl, he]
      unfold Session.startSession
      have hv : (view s).eraStart.get (a + 1) = some j := hj'
      simp only [Session.nextActive, hv, hle', if_true]
      unfold Session.startEra view
      simp only [g1, g2]
      rfl
    refine ⟨_, { view s with del := (Chain.stkOn c2).dele, active := some (a, false) }, false, ht0, ?_, hmid, rfl, key _ hmid rfl rfl⟩
    exact ⟨rfl, rfl, rfl, rfl, rfl, rfl, rfl, f1.trans e1⟩

/-! ### Recorded exposures -/

theorem erase_all {κ α : Type} [DecidableEq κ] (l : List κ) : ∀ (m : FMap κ α) (j : κ),
    (l.foldl (fun m j => m.erase j) m).get j = if j ∈ l then none else m.get j := by
  induction l with
  | nil => intro m j; simp
  | cons x l ih =>
    intro m j
    rw [List.foldl_cons, ih, FMap.get_erase]
    by_cases h1 : j ∈ l
    · simp [h1]
    · by_cases h2 : j = x
      · simp [h2]
      · simp [h1, h2]

theorem erase_filter {κ α : Type} [DecidableEq κ] (m : FMap κ α) (q : κ → Bool) (j : κ) :
    ((m.keys.filter q).foldl (fun m j => m.erase j) m).get j = if q j then none else m.get j := by
  rw [erase_all]
  by_cases hq : q j = true
  · rw [if_pos hq]
    split
    · rfl
    · rename_i hn
      cases hg : m.get j with
      | none => rfl
      | some v => exact absurd (List.mem_filter.2 ⟨(FMap.mem_keys_iff m j).2 ⟨v, hg⟩, hq⟩) hn
  · rw [if_neg hq, if_neg (fun h => hq (List.mem_filter.1 h).2)]

theorem prune_get {cfg : Cfg} {c : Chain.State} {a : Nat} {p : Nat × Nat} (h1 : c.slash.active = some a) (h2 : c.slash.bondedEras.head? = some p)
    (m : FMap Nat Root) (j : Nat) : (prune cfg c m).get j = if cfg.ses.bonding < a ∧ j < p.2 then none else m.get j := by
  unfold prune
  rw [h1, h2]
  simp only
  by_cases hb : cfg.ses.bonding < a
  · rw [if_pos hb, erase_filter]
    simp [hb]
  · rw [if_neg hb, if_neg (fun h => hb h.1)]

theorem clear_stakers (s : Delegation.State) (e : Nat) (x : Nat) (v : AccId) (h : x ≠ e) : (Delegation.clearEra s e).stakers.get (x, v) = s.stakers.get (x, v) := by
  unfold Delegation.clearEra
  simp only
  rw [erase_filter, if_neg (by simpa using h)]

theorem fold_other (e : Nat) (f : AccId → Slashing.Exposure) (l : List AccId) : ∀ (m : FMap (Nat × AccId) Slashing.Exposure) (x : Nat) (v : AccId),
    x ≠ e → (l.foldl (fun m v => m.insert (e, v) (f v)) m).get (x, v) = m.get (x, v) := by
  induction l with
  | nil => intro m x v _; rfl
  | cons w l ih =>
    intro m x v h
    rw [List.foldl_cons, ih _ _ _ h, FMap.get_insert_ne]
    intro hh
    exact h (congrArg Prod.fst hh)

/-- What an election does to the recorded exposures. -/
theorem newEra_exposures (d : Delegation.State) (order : List AccId) :
    (∀ x v, x ≠ Delegation.nextEra d → Delegation.nextEra d < x + (d.historyDepth + 1) → (Delegation.newEra d order).1.stakers.get (x, v) = d.stakers.get (x, v)) ∧
    (∀ l, (Delegation.newEra d order).2 = .elected (Delegation.nextEra d) (some l) → ∀ v ∈ l,
      ∃ x, (Delegation.newEra d order).1.stakers.get (Delegation.nextEra d, v) = some x ∧ x.own = x.total ∧
        x.total = (((d.led.bonded.get v).bind d.led.ledgers.get).map Ledger.Ledger.active).getD 0) := by
  have hst : ∀ (t : Delegation.State) e o, (Delegation.storeElected t e o).stakers = t.stakers := by
    intro t e o; cases o <;> rfl
  obtain ⟨f1, f2, f3, f4, f5, f6⟩ := Delegation.enterEra_frame d (Delegation.nextEra d)
  constructor
  · intro x v h1 h2
    have he : (Delegation.enterEra d (Delegation.nextEra d)).stakers.get (x, v) = d.stakers.get (x, v) := by
      unfold Delegation.enterEra
      simp only
      split
      · exact clear_stakers _ _ _ _ (by omega)
      · rfl
    unfold Delegation.newEra
    simp only [hst]
    unfold Delegation.elect
    simp only
    split
    · exact he
    · rw [fold_other _ _ _ _ _ _ h1]; exact he
  · intro l hl v hv
    unfold Delegation.newEra at hl ⊢
    simp only [hst] at hl ⊢
    injection hl with _ h2
    unfold Delegation.elect at h2 ⊢
    simp only at h2 ⊢
    by_cases hlt : (Delegation.entries (Delegation.enterEra d (Delegation.nextEra d)) order).length < max (Delegation.enterEra d (Delegation.nextEra d)).minValidators 1
    · rw [if_pos hlt] at h2; cases h2
    · rw [if_neg hlt] at h2 ⊢
      simp only [Option.some.injEq] at h2
      simp only [h2]
      refine ⟨_, Delegation.stakers_fold (Delegation.nextEra d) _ l _ v hv, rfl, ?_⟩
      unfold Delegation.exposureOf
      simp only [f5, f6]

/-- What the root of a session says about a validator. -/
def look (m : FMap Nat Root) (k : Nat) (v : AccId) : Option Slashing.Exposure :=
  (m.get k).bind fun r => (r.find? fun p => decide (p.1 = v)).map Prod.snd

theorem look_some {m : FMap Nat Root} {k : Nat} {v : AccId} {x : Slashing.Exposure} (h : look m k v = some x) : ∃ r, m.get k = some r := by
  unfold look at h
  cases hg : m.get k with
  | none => rw [hg] at h; cases h
  | some r => exact ⟨r, rfl⟩

theorem look_congr {m m' : FMap Nat Root} {k k' : Nat} (v : AccId) (h : m'.get k' = m.get k) : look m' k' v = look m k v := by
  unfold look; rw [h]

theorem look_map (f : AccId → Slashing.Exposure) (l : List AccId) (v : AccId) (h : v ∈ l) :
    ((l.map fun v => (v, f v)).find? fun p => decide (p.1 = v)).map Prod.snd = some (f v) := by
  induction l with
  | nil => cases h
  | cons w l ih =>
    rw [List.map_cons, List.find?_cons]
    by_cases hw : w = v
    · subst hw; simp
    · simp only [hw, decide_false]
      exact ih (by rcases List.mem_cons.1 h with rfl | h; exact absurd rfl hw; exact h)

/-- The first session of the oldest bonded era. -/
def low (s : State) : Nat := (s.c.slash.bondedEras.head?.map Prod.snd).getD 0

/-- Roots and recorded exposures: `Q` are the validators of the sessions seen so far and their exposures, `R` the exposures
recorded for eras planned so far. -/
structure Roots (s : State) (a c : Nat) (Q R : Nat → AccId → Slashing.Exposure → Prop) : Prop where
  later : ∀ e, c < e → s.c.stk.dele.erasValidators.get e = none
  now : s.c.stk.dele.erasValidators.get a ≠ none → ∀ v ∈ s.validators, ∃ x, s.c.stk.dele.stakers.get (a, v) = some x ∧ look s.roots s.session v = some x
  next : s.c.stk.dele.erasValidators.get c ≠ none → ∀ v ∈ s.queued, ∃ x, s.c.stk.dele.stakers.get (c, v) = some x ∧ look s.roots (s.session + 1) v = some x
  past : ∀ j v x, Q j v x → j ≤ s.session ∧ (low s ≤ j → look s.roots j v = some x)
  gone : ∀ j, j < low s → s.roots.get j = none
  sorted : s.c.slash.bondedEras.Pairwise fun p q => p.2 ≤ q.2
  bound : ∀ p ∈ s.c.slash.bondedEras, p.2 ≤ s.session
  kept : ∀ e v x, R e v x → e ≤ c ∧ (a ≤ e → s.c.stk.dele.stakers.get (e, v) = some x)

/-- What is seen of exposures in a state. -/
def seen (s : State) (j : Nat) (v : AccId) (x : Slashing.Exposure) : Prop :=
  ∃ a, j = s.session ∧ s.c.slash.active = some a ∧ s.c.stk.dele.erasValidators.get a ≠ none ∧ v ∈ s.validators ∧ s.c.stk.dele.stakers.get (a, v) = some x

/-- What is recorded for the planned era or the active one in a state. -/
def planned (s : State) (e : Nat) (v : AccId) (x : Slashing.Exposure) : Prop :=
  (s.c.w.ledger.era = some e ∨ s.c.slash.active = some e) ∧ s.c.stk.dele.stakers.get (e, v) = some x

theorem low_le {s : State} (h : ∀ p ∈ s.c.slash.bondedEras, p.2 ≤ s.session) : low s ≤ s.session := by
  unfold low
  cases hb : s.c.slash.bondedEras with
  | nil => exact Nat.zero_le _
  | cons p l => exact h p (by rw [hb]; exact List.mem_cons_self)

theorem head_drop (l : List (Nat × Nat)) (h : l.Pairwise fun p q => p.2 ≤ q.2) (n : Nat) (hn : l.drop n ≠ []) :
    (l.head?.map Prod.snd).getD 0 ≤ ((l.drop n).head?.map Prod.snd).getD 0 := by
  cases l with
  | nil => exact Nat.zero_le _
  | cons p l =>
    cases n with
    | zero => exact Nat.le_refl _
    | succ n =>
      rw [List.drop_succ_cons] at hn ⊢
      cases hd : l.drop n with
      | nil => exact absurd hd hn
      | cons q r => exact (List.pairwise_cons.1 h).1 q (List.mem_of_mem_drop (i := n) (by rw [hd]; exact List.mem_cons_self))

theorem note_other (s : State) (idx : Nat) (keys : AccId → Bool) (l : Option (List AccId)) {j : Nat} (h : j ≠ idx) :
    (note s idx keys l).get j = s.roots.get j := by
  unfold note
  split
  · exact FMap.get_insert_ne _ _ h
  · split
    · exact FMap.get_insert_ne _ _ h
    · rfl

theorem newSession_stays {cfg : Cfg} {s : State} {idx : Nat} {order : List AccId} (hp : Session.plans cfg.ses (view s) idx = false) :
    newSession cfg s idx order = (s, none) := by
  unfold newSession
  simp only [hp, Session.newSession_no hp]
  rfl

/-- The start of a session: what is left of the roots. -/
structure Started (s t : State) : Prop where
  era : era t.c = era s.c
  session : t.session = s.session + 1
  validators : t.validators = s.queued
  sorted : t.c.slash.bondedEras.Pairwise fun p q => p.2 ≤ q.2
  bound : ∀ p ∈ t.c.slash.bondedEras, p.2 ≤ s.session + 1
  lower : low s ≤ low t
  roots : ∀ j, t.roots.get j = if low t ≤ j then s.roots.get j else none

theorem Started.low_le {s t : State} (h : Started s t) : Epoch.low t ≤ s.session + 1 := by
  have := Epoch.low_le (s := t) (by rw [h.session]; exact h.bound)
  rwa [h.session] at this

theorem started {cfg : Cfg} {s t : State} {a : Nat} {st : Bool} {c k : Nat} {Q R : Nat → AccId → Slashing.Exposure → Prop} {σ : Nat → Nat} {P : Nat → Nat → Prop}
    {u : Session.State} {st' : Bool}
    (h : Session.At (view s) a st c k) (hh : Session.Hist cfg.ses (view s) a σ P) (hR : Roots s a c Q R)
    (ht : startSession cfg { endSession cfg s with session := s.session + 1, validators := s.queued } = some t)
    (hu : Like u { view s with active := some (a, st') }) (hm : Session.mid cfg.ses u = view t) : Started s t := by
  have hA : Session.At u a st' c k := hu.at ⟨rfl, h.era, h.le, h.le', h.start, h.same, h.ahead, h.none⟩
  obtain ⟨m1, m2, m3, m4, m5, m6, m7⟩ := Session.mid_spec cfg.ses hA
  rw [hm] at m1 m2 m3 m4 m5 m6 m7
  obtain ⟨e1, e2, e3⟩ := like_end cfg s
  generalize hc1 : (endSession cfg s).c = c1 at *
  rw [e3] at ht
  have hb1 : c1.slash.bondedEras = s.c.slash.bondedEras := congrArg Prod.snd e2
  have ub : u.bonded = s.c.slash.bondedEras := hu.bonded
  have us : u.session = s.session := hu.session
  have q1 : era t.c = era s.c := m5.trans hu.ctl
  have q2 : t.session = s.session + 1 := m1.trans (by rw [us])
  have q3 : t.validators = s.queued := m2.trans hu.queued
  have hne : s.c.slash.bondedEras ≠ [] := by
    have := hh.bonded
    intro hn
    have e : (view s).bonded = [] := hn
    rw [e] at this
    have := congrArg List.length this
    simp at this
    omega
  rcases Nat.lt_or_ge a c with hlt | hge
  · have hc : c = a + 1 := Nat.le_antisymm h.le' hlt
    obtain ⟨m71, m72⟩ := m7 hc
    rw [ub, us] at m72
    have m72 : t.c.slash.bondedEras = (s.c.slash.bondedEras ++ [(a + 1, s.session + 1)]).drop (Session.pruneCount cfg.ses (a + 1) (s.c.slash.bondedEras ++ [(a + 1, s.session + 1)])) := m72
    have hso : (s.c.slash.bondedEras ++ [(a + 1, s.session + 1)]).Pairwise fun p q => p.2 ≤ q.2 := by
      rw [List.pairwise_append]
      refine ⟨hR.sorted, List.pairwise_singleton _ _, fun p hp q hq => ?_⟩
      rw [List.mem_singleton.1 hq]
      exact Nat.le_succ_of_le (hR.bound p hp)
    have hta : t.c.slash.active = some (a + 1) := by
      have : t.c.slash.active.map (·, t.started) = some (a + 1, false) := m71
      obtain ⟨b, hb, hbe⟩ := Option.map_eq_some_iff.1 this
      rw [hb, (Prod.mk.inj hbe).1]
    have htn : t.c.slash.bondedEras ≠ [] := by
      rw [m72]
      intro hn
      have hlen := congrArg List.length hn
      rw [List.length_drop] at hlen
      unfold Session.pruneCount at hlen
      split at hlen
      · have hall : ∀ (l : List (Nat × Nat)) (b : Nat × Nat), ¬ (decide (b.1 < a + 1 - cfg.ses.bonding) = true) →
            ((l ++ [b]).takeWhile fun p => decide (p.1 < a + 1 - cfg.ses.bonding)).length ≤ l.length := by
          intro l b hb
          induction l with
          | nil => simp only [List.nil_append, List.takeWhile_cons, if_neg hb]; exact Nat.le_refl _
          | cons p l ih =>
            rw [List.cons_append, List.takeWhile_cons]
            split
            · simp only [List.length_cons]; omega
            · exact Nat.zero_le _
        have := hall s.c.slash.bondedEras (a + 1, s.session + 1) (by simp)
        simp only [List.length_append, List.length_cons, List.length_nil] at hlen
        omega
      · simp only [List.length_append, List.length_cons, List.length_nil] at hlen
        omega
    have hl0 : low s = ((s.c.slash.bondedEras ++ [(a + 1, s.session + 1)]).head?.map Prod.snd).getD 0 := by
      unfold low
      cases hb : s.c.slash.bondedEras with
      | nil => exact absurd hb hne
      | cons p l => rfl
    have hlow : low s ≤ low t := by
      rw [hl0]
      unfold low
      rw [m72] at htn ⊢
      exact head_drop _ hso _ htn
    refine ⟨q1, q2, q3, ?_, ?_, hlow, fun j => ?_⟩
    · rw [m72]; exact hso.sublist (List.drop_sublist _ _)
    · intro p hp
      rw [m72] at hp
      rcases List.mem_append.1 (List.mem_of_mem_drop hp) with hp | hp
      · exact Nat.le_succ_of_le (hR.bound p hp)
      · rw [List.mem_singleton.1 hp]
    · rcases start_cases ht with ⟨hn, rfl⟩ | ⟨i, hi, hle, hhalt, rfl⟩
      · exfalso
        have hca : c1.slash.active = s.c.slash.active := congrArg Prod.fst e2
        have : s.c.slash.active.map (·, s.started) = some (a, st) := h.active
        obtain ⟨b, hb, hbe⟩ := Option.map_eq_some_iff.1 this
        have hx : c1.slash.active = some (a + 1) := hta
        rw [hca, hb, (Prod.mk.inj hbe).1] at hx
        have := Option.some.inj hx
        omega
      · generalize (Penalty.step cfg.chain _ _).1 = c2 at *
        cases hhd : c2.slash.bondedEras.head? with
        | none => exact absurd (List.head?_eq_none_iff.1 hhd) htn
        | some p =>
          have hl : low (⟨c2, s.session + 1, false, s.eraStart, s.force, s.queued, s.queued, prune cfg c2 s.roots⟩ : State) = p.2 := by
            unfold low; rw [hhd]; rfl
          show (prune cfg c2 s.roots).get j = if low (⟨c2, s.session + 1, false, s.eraStart, s.force, s.queued, s.queued, prune cfg c2 s.roots⟩ : State) ≤ j then _ else _
          rw [hl, prune_get hta hhd]
          by_cases hj : j < p.2
          · rw [if_neg (show ¬ p.2 ≤ j by omega)]
            by_cases hB : cfg.ses.bonding < a + 1
            · rw [if_pos ⟨hB, hj⟩]
            · rw [if_neg (fun hh => hB hh.1)]
              apply hR.gone
              have : low s = p.2 := by
                rw [hl0]
                have hpc : Session.pruneCount cfg.ses (a + 1) (s.c.slash.bondedEras ++ [(a + 1, s.session + 1)]) = 0 := by
                  unfold Session.pruneCount; rw [if_neg hB]
                have m72' : c2.slash.bondedEras = _ := m72
                rw [hpc, List.drop_zero] at m72'
                rw [← m72', hhd]; rfl
              omega
          · rw [if_neg (fun hh => hj hh.2), if_pos (by omega)]
  · have hc : c = a := Nat.le_antisymm hge h.le
    have m62 : t.c.slash.bondedEras = s.c.slash.bondedEras := (m6 hc).2.trans ub
    have hlow : low t = low s := by unfold low; rw [m62]
    refine ⟨q1, q2, q3, by rw [m62]; exact hR.sorted, fun p hp => Nat.le_succ_of_le (hR.bound p (m62 ▸ hp)), by rw [hlow], fun j => ?_⟩
    have hroots : t.roots = s.roots := by
      rcases start_cases ht with ⟨hn, rfl⟩ | ⟨i, hi, hle, hhalt, rfl⟩
      · rfl
      · exfalso
        have hca : c1.slash.active = s.c.slash.active := congrArg Prod.fst e2
        have : s.c.slash.active.map (·, s.started) = some (a, st) := h.active
        obtain ⟨b, hb, hbe⟩ := Option.map_eq_some_iff.1 this
        have hna : Session.nextActive (view { s with c := c1, session := s.session + 1, validators := s.queued }) = a + 1 := by
          simp only [Session.nextActive, view, hca, hb, Option.map_some, (Prod.mk.inj hbe).1]
        have hx : s.eraStart.get (a + 1) = none := h.none (a + 1) (by omega)
        have hi' := hi
        rw [hna] at hi'
        rw [show _ = _ from hx] at hi'
        cases hi'
    rw [hroots, hlow]
    split
    · rfl
    · exact hR.gone j (by omega)

/-- A rotation. -/
theorem roots_rotate {cfg : Cfg} {s s' : State} {order : List AccId} {keys : AccId → Bool} {a : Nat} {st : Bool} {c k : Nat}
    {Q R : Nat → AccId → Slashing.Exposure → Prop} {σ : Nat → Nat} {P : Nat → Nat → Prop}
    (h : Session.At (view s) a st c k) (hh : Session.Hist cfg.ses (view s) a σ P) (hR : Roots s a c Q R) (hr : rotate cfg s order keys = some s') :
    ∃ st' c' k' σ', Session.At (view s') c st' c' k' ∧ Session.Hist cfg.ses (view s') c σ' (fun k' e => P k' e ∨ (k' = s.session ∧ e = a)) ∧
      Roots s' c c' (fun j v x => Q j v x ∨ seen s j v x) (fun e v x => R e v x ∨ planned s e v x) ∧ s'.session = s.session + 1 := by
  obtain ⟨t, u, st', ht, hu, hm, hs', hl⟩ := rotate_like h hr
  have hA : Session.At u a st' c k := hu.at ⟨rfl, h.era, h.le, h.le', h.start, h.same, h.ahead, h.none⟩
  have hH : Session.Hist cfg.ses u a σ P := hu.hist ⟨hh.depth, hh.mono, hh.le, hh.start, hh.bonded, hh.past⟩
  obtain ⟨c', k', g1, g2, g3, _⟩ := Session.rotate_facts cfg.ses hA hH.depth order keys
  obtain ⟨σ', g4⟩ := Session.hist_rotate cfg.ses hA hH order keys
  have us : u.session = s.session := hu.session
  rw [us] at g4
  have hS := started h hh hR ht hu hm
  refine ⟨_, c', k', σ', hl.at g1, hl.hist g4, ?_, ?_⟩
  rotate_left
  · exact hl.session.trans (g2.trans (by rw [us]))
  have hd : 1 ≤ s.c.stk.dele.historyDepth := hh.depth
  have hact : s.c.slash.active = some a := by
    have : s.c.slash.active.map (·, s.started) = some (a, st) := h.active
    obtain ⟨b, hb, hbe⟩ := Option.map_eq_some_iff.1 this
    rw [hb, (Prod.mk.inj hbe).1]
  have hera : s.c.w.ledger.era = some c := h.era
  obtain ⟨e1, e2, e3, e4⟩ := Session.ctl_eq hS.era
  have e5 := Session.ctl_stakers hS.era
  have e1 : t.c.w.ledger.era = s.c.w.ledger.era := e1
  have e3 : t.c.stk.dele.erasValidators = s.c.stk.dele.erasValidators := e3
  have e4 : t.c.stk.dele.historyDepth = s.c.stk.dele.historyDepth := e4
  have e5 : t.c.stk.dele.stakers = s.c.stk.dele.stakers := e5
  have hlow := hS.low_le
  have hsl : low s ≤ s.session := low_le hR.bound
  have hc'era : s'.c.w.ledger.era = some c' := (hl.at g1).era
  obtain ⟨n1, n2, n3, n4⟩ := newSession_like cfg t (s.session + 2) order
  have hbs : s'.c.slash.bondedEras = t.c.slash.bondedEras := by rw [hs']; exact congrArg Prod.snd n4
  have hlow' : low s' = low t := by unfold low; rw [hbs]
  have hss : s'.session = s.session + 1 := hl.session.trans (g2.trans (by rw [us]))
  have hsv : s'.validators = s.queued := hl.validators.trans (g3.trans hu.queued)
  have hrt : ∀ j, j ≠ s.session + 2 → s'.roots.get j = t.roots.get j := by
    intro j hj
    rw [hs']
    show (note _ _ _ _).get j = _
    rw [note_other _ _ _ _ hj, n3]
  -- what the election leaves
  have hkey : (∀ e, c' < e → s'.c.stk.dele.erasValidators.get e = none) ∧
      s'.c.stk.dele.erasValidators.get c = s.c.stk.dele.erasValidators.get c ∧
      (∀ v, s'.c.stk.dele.stakers.get (c, v) = s.c.stk.dele.stakers.get (c, v)) ∧ c ≤ c' ∧
      (s'.c.stk.dele.erasValidators.get c' ≠ none → ∀ v ∈ s'.queued, ∃ x, s'.c.stk.dele.stakers.get (c', v) = some x ∧ look s'.roots (s.session + 2) v = some x) := by
    cases hp : Session.plans cfg.ses (view t) (s.session + 2) with
    | false =>
      rw [newSession_stays hp] at hs'
      have hsc : s'.c = t.c := by rw [hs']
      have hcc : c' = c := by
        rw [hsc, e1, hera] at hc'era
        exact (Option.some.inj hc'era).symm
      subst hcc
      have hsq : s'.queued = s.queued.filter keys := by rw [hs']; rfl
      have hsr : s'.roots = note t (s.session + 2) keys none := by rw [hs']
      refine ⟨fun e he => by rw [hsc, e3]; exact hR.later e he, by rw [hsc, e3], fun v => by rw [hsc, e5], Nat.le_refl _, fun hne v hv => ?_⟩
      rw [hsc, e3] at hne
      rw [hsq] at hv
      obtain ⟨x, hx, hlk⟩ := hR.next hne v (List.mem_filter.1 hv).1
      refine ⟨x, by rw [hsc, e5]; exact hx, ?_⟩
      have htr : t.roots.get (s.session + 1) = s.roots.get (s.session + 1) := by rw [hS.roots, if_pos hlow]
      obtain ⟨r, hrr⟩ := look_some hlk
      rw [← hlk]
      apply look_congr
      rw [hsr]
      unfold note
      simp only [show s.session + 2 - 1 = s.session + 1 from rfl, htr, hrr]
      exact FMap.get_insert_self _ _ _
    | true =>
      have hy := Session.newSession_yes (order := order) hp
      have hn : Delegation.nextEra (view t).del = c + 1 := by
        have : (view t).del.led.era = some c := e1.trans hera
        simp only [Delegation.nextEra, this]
      rw [hn] at hy
      obtain ⟨y1, y2, y3, y4⟩ := Session.ctl_eq n1.ctl
      have y5 := Session.ctl_stakers n1.ctl
      have ynd : (Session.newSession cfg.ses (view t) (s.session + 2) order).1.del = (Delegation.newEra (view t).del order).1 := by
        simp [Session.newSession, hp, Session.newEra]
      obtain ⟨x1, x2⟩ := newEra_exposures (view t).del order
      rw [hn] at x1 x2
      rw [ynd] at y5
      have hscc : s'.c = (newSession cfg t (s.session + 2) order).1.c := by rw [hs']
      have z1 : s'.c.w.ledger.era = some (c + 1) := by rw [hscc]; exact y1.trans hy.era
      have z3 : s'.c.stk.dele.erasValidators = (Session.newSession cfg.ses (view t) (s.session + 2) order).1.del.erasValidators := by rw [hscc]; exact y3
      have z5 : s'.c.stk.dele.stakers = (Delegation.newEra (view t).del order).1.stakers := by rw [hscc]; exact y5
      have vd : (view t).del.historyDepth = s.c.stk.dele.historyDepth := e4
      have vv : (view t).del.erasValidators = s.c.stk.dele.erasValidators := e3
      have vs : (view t).del.stakers = s.c.stk.dele.stakers := e5
      have hcc : c' = c + 1 := Option.some.inj (hc'era.symm.trans z1)
      subst hcc
      refine ⟨fun e he => ?_, ?_, fun v => ?_, Nat.le_succ _, ?_⟩
      · rw [z3, hy.vals e (by omega)]
        split
        · rfl
        · rw [vv]; exact hR.later e (by omega)
      · rw [z3, hy.vals c (by omega), if_neg (by omega), vv]
      · rw [z5, x1 c v (by omega) (by omega), vs]
      · intro hne v hv
        cases hlo : (Session.newSession cfg.ses (view t) (s.session + 2) order).2 with
        | none =>
          exfalso
          apply hne
          rw [z3]
          exact hy.failed hlo (by rw [vv]; exact hR.later _ (Nat.lt_succ_self _))
        | some l =>
          have hel : (Delegation.newEra (view t).del order).2 = .elected (c + 1) (some l) := by
            obtain ⟨_, _, _, _, l', hl', _⟩ := Session.del_newEra (view t).del order
            rw [hn] at hl'
            have : (Session.newSession cfg.ses (view t) (s.session + 2) order).2 = l' := by
              simp only [Session.newSession, hp, if_true, Session.newEra, hl']
            rw [hl', ← this, hlo]
          have hl2 : (newSession cfg t (s.session + 2) order).2 = some l := n2.trans hlo
          have hsq : s'.queued = l.filter keys := by rw [hs']; simp only [hl2, Option.getD_some]
          rw [hsq] at hv
          obtain ⟨x, hx, _⟩ := x2 l hel v (List.mem_filter.1 hv).1
          refine ⟨x, by rw [z5]; exact hx, ?_⟩
          have hsr : s'.roots = note (newSession cfg t (s.session + 2) order).1 (s.session + 2) keys (some l) := by rw [hs', ← hl2]
          rw [hsr]
          unfold look note
          rw [FMap.get_insert_self]
          simp only [Option.bind_some]
          rw [look_map _ _ _ hv, ← hscc, z1]
          simp only [Option.getD_some, exposure]
          rw [z5, hx]; rfl
  obtain ⟨r1, r2, r3, r4, r5⟩ := hkey
  refine ⟨r1, ?_, ?_, ?_, ?_, ?_, ?_, ?_⟩
  · intro hne v hv
    rw [r2] at hne
    rw [hsv] at hv
    obtain ⟨x, hx, hlk⟩ := hR.next hne v hv
    refine ⟨x, by rw [r3]; exact hx, ?_⟩
    rw [hss, ← hlk]
    apply look_congr
    rw [hrt _ (by omega), hS.roots, if_pos hlow]
  · rw [hss]; exact r5
  · intro j v x hq
    have hold : j ≤ s.session ∧ (low s ≤ j → look s.roots j v = some x) := by
      rcases hq with hq | ⟨a', rfl, ha', hne, hv, hx⟩
      · exact hR.past j v x hq
      · rw [hact] at ha'
        cases ha'
        obtain ⟨x', hx', hlk⟩ := hR.now hne v hv
        rw [hx] at hx'
        cases hx'
        exact ⟨Nat.le_refl _, fun _ => hlk⟩
    refine ⟨by rw [hss]; omega, fun hj => ?_⟩
    rw [hlow'] at hj
    rw [← hold.2 (Nat.le_trans hS.lower hj)]
    apply look_congr
    rw [hrt _ (by omega), hS.roots, if_pos hj]
  · intro j hj
    rw [hlow'] at hj
    rw [hrt _ (by omega), hS.roots, if_neg (by omega)]
  · rw [hbs]; exact hS.sorted
  · rw [hbs, hss]; exact hS.bound
  · intro e v x hq
    have hold : e ≤ c ∧ (a ≤ e → s.c.stk.dele.stakers.get (e, v) = some x) := by
      rcases hq with hq | ⟨he, hx⟩
      · exact hR.kept e v x hq
      · rw [hera, hact] at he
        rcases he with he | he
        · cases he
          exact ⟨Nat.le_refl _, fun _ => hx⟩
        · cases he
          exact ⟨h.le, fun _ => hx⟩
    refine ⟨by omega, fun he => ?_⟩
    have hec : e = c := by omega
    subst hec
    rw [r3]
    exact hold.2 h.le

/-! ### Everything but rotations -/

/-- Operations that keep at least one era in the history. -/
def Op.keeps : Op → Prop
  | .setHistoryDepth d => 1 ≤ d
  | _ => True

theorem range_stakers (n : Nat) : ∀ (f : Nat) (s : Session.State) (x : Nat) (v : AccId), ¬ (f ≤ x ∧ x < f + n) →
    ((List.range' f n).foldl Session.clearEra s).del.stakers.get (x, v) = s.del.stakers.get (x, v) := by
  induction n with
  | zero => intro f s x v _; rfl
  | succ n ih =>
    intro f s x v h
    rw [List.range'_succ, List.foldl_cons, ih (f + 1) _ x v (by omega)]
    exact clear_stakers _ _ _ _ (by omega)

theorem depth_stakers {s : Session.State} {c : Nat} (h : s.del.led.era = some c) (d x : Nat) (v : AccId) (hx : c ≤ x + d) :
    (Session.setHistoryDepth s d).del.stakers.get (x, v) = s.del.stakers.get (x, v) := by
  unfold Session.setHistoryDepth
  rw [h]
  exact range_stakers _ _ _ _ _ (by omega)

/-- What an operation other than a rotation does to sessions and eras. -/
theorem other_like {cfg : Cfg} {s : State} {a : Nat} {st : Bool} {c k : Nat} (h : Session.At (view s) a st c k) (op : Op)
    (ho : ∀ o f, op ≠ .rotate o f) (hk : op.keeps) :
    ∃ op' : Session.Op, (∀ o f, op' ≠ .rotate o f) ∧ op'.keeps ∧ Like (view (step cfg s op).1) (Session.step cfg.ses (view s) op') ∧
      (step cfg s op).1.roots = s.roots ∧ bonds (step cfg s op).1.c = bonds s.c ∧
      (∀ x v, a ≤ x → (step cfg s op).1.c.stk.dele.stakers.get (x, v) = s.c.stk.dele.stakers.get (x, v)) := by
  have hact : s.c.slash.active = some a := by
    have : s.c.slash.active.map (·, s.started) = some (a, st) := h.active
    obtain ⟨b, hb, hbe⟩ := Option.map_eq_some_iff.1 this
    rw [hb, (Prod.mk.inj hbe).1]
  -- an operation that does nothing in `Session`
  have idle : ∀ c', era c' = era s.c → bonds c' = bonds s.c →
      ∃ op' : Session.Op, (∀ o f, op' ≠ .rotate o f) ∧ op'.keeps ∧ Like (view { s with c := c' }) (Session.step cfg.ses (view s) op') ∧
        ({ s with c := c' } : State).roots = s.roots ∧ bonds ({ s with c := c' } : State).c = bonds s.c ∧
        (∀ x v, a ≤ x → ({ s with c := c' } : State).c.stk.dele.stakers.get (x, v) = s.c.stk.dele.stakers.get (x, v)) := by
    intro c' h1 h2
    refine ⟨.other (.newEra []), fun o f => (by simp), trivial, view_like h1 h2 rfl rfl rfl rfl rfl rfl, rfl, h2, fun x v _ => ?_⟩
    have := Session.ctl_stakers h1
    show c'.stk.dele.stakers.get _ = _
    rw [show c'.stk.dele.stakers = s.c.stk.dele.stakers from this]
  have same : ∃ op' : Session.Op, (∀ o f, op' ≠ .rotate o f) ∧ op'.keeps ∧ Like (view s) (Session.step cfg.ses (view s) op') ∧
        s.roots = s.roots ∧ bonds s.c = bonds s.c ∧ (∀ x v, a ≤ x → s.c.stk.dele.stakers.get (x, v) = s.c.stk.dele.stakers.get (x, v)) := idle s.c rfl rfl
  cases op with
  | rotate o f => exact absurd rfl (ho o f)
  | author v =>
    simp only [step, hact]
    obtain ⟨h1, h2⟩ := era_dele cfg s.c (.addPoints a v 20) rfl
    have e1 : (dele cfg s.c (.addPoints a v 20)).slash.active = s.c.slash.active := congrArg Prod.fst h1
    refine ⟨.author v, fun o f => (by simp), trivial, ?_, trivial, h1, fun x w _ => ?_⟩
    · have hs : Session.step cfg.ses (view s) (.author v) = { view s with del := Delegation.addPoints (view s).del a v 20 } := by
        simp only [Session.step, Session.author, h.active]
      rw [hs]
      refine ⟨rfl, ?_, rfl, congrArg Prod.snd h1, rfl, rfl, rfl, h2 rfl⟩
      show (dele cfg s.c (.addPoints a v 20)).slash.active.map _ = s.c.slash.active.map _
      rw [e1]
    · have := Session.ctl_stakers (h2 rfl)
      show (dele cfg s.c (.addPoints a v 20)).stk.dele.stakers.get _ = _
      rw [show (dele cfg s.c (.addPoints a v 20)).stk.dele.stakers = s.c.stk.dele.stakers from this]
  | finalize =>
    refine ⟨.finalize, fun o f => (by simp), trivial, ⟨rfl, ?_, rfl, rfl, rfl, rfl, rfl, rfl⟩, rfl, rfl, fun _ _ _ => rfl⟩
    simp only [step, Session.step, Session.finalize, view, hact]
    rfl
  | forceNewEra => exact ⟨.forceNewEra, fun o f => (by simp), trivial, ⟨rfl, rfl, rfl, rfl, rfl, rfl, rfl, rfl⟩, rfl, rfl, fun _ _ _ => rfl⟩
  | forceNoEras => exact ⟨.forceNoEras, fun o f => (by simp), trivial, ⟨rfl, rfl, rfl, rfl, rfl, rfl, rfl, rfl⟩, rfl, rfl, fun _ _ _ => rfl⟩
  | forceNewEraAlways => exact ⟨.forceNewEraAlways, fun o f => (by simp), trivial, ⟨rfl, rfl, rfl, rfl, rfl, rfl, rfl, rfl⟩, rfl, rfl, fun _ _ _ => rfl⟩
  | offenderDisabled =>
    refine ⟨.offenderDisabled, fun o f => (by simp), trivial, ?_, rfl, rfl, fun _ _ _ => rfl⟩
    simp only [step, Session.step]
    have : ∀ w : Session.State, Like { w with force := (Session.ensureNewEra w).force } (Session.ensureNewEra w) := by
      intro w
      unfold Session.ensureNewEra
      split <;> exact ⟨rfl, rfl, rfl, rfl, rfl, rfl, rfl, rfl⟩
    exact this (view s)
  | setHistoryDepth d =>
    obtain ⟨i1, i2, i3, i4, i5, i6, i7, i8, i9, i10, i11, i12⟩ := Session.setHistoryDepth_spec h.era d
    have hk' : 1 ≤ d := hk
    have := h.le'
    refine ⟨.setHistoryDepth d, fun o f => (by simp), hk, ?_, rfl, rfl, fun x v hx => ?_⟩
    · refine ⟨i1.symm, i2.symm, rfl, i3.symm, i4.symm, i5.symm, i6.symm, ?_⟩
      unfold Session.ctl
      rw [show (Session.step cfg.ses (view s) (.setHistoryDepth d)).del.led = (view s).del.led from i7]
      rfl
    · exact depth_stakers h.era d x v (by omega)
  | configure e n m w =>
    obtain ⟨h1, h2⟩ := era_dele cfg s.c (.configure e n m w s.c.stk.dele.historyDepth) rfl
    have e1 : (dele cfg s.c (.configure e n m w s.c.stk.dele.historyDepth)).slash.active = s.c.slash.active := congrArg Prod.fst h1
    refine ⟨.configure e n m w, fun o f => (by simp), trivial, ?_, rfl, h1, fun x v _ => ?_⟩
    · refine ⟨rfl, ?_, rfl, congrArg Prod.snd h1, rfl, rfl, rfl, h2 rfl⟩
      show (dele cfg s.c (.configure e n m w s.c.stk.dele.historyDepth)).slash.active.map _ = s.c.slash.active.map _
      rw [e1]
      rfl
    · have := Session.ctl_stakers (h2 rfl)
      show (dele cfg s.c (.configure e n m w s.c.stk.dele.historyDepth)).stk.dele.stakers.get _ = _
      rw [show (dele cfg s.c (.configure e n m w s.c.stk.dele.historyDepth)).stk.dele.stakers = s.c.stk.dele.stakers from this]
  | report j v f rs =>
    simp only [step]
    split
    · exact same
    · rename_i x _
      obtain ⟨h1, h2⟩ := era_offence cfg.chain s.c (activeStart s) j v x f rs
      exact idle _ h1 h2
  | other op =>
    simp only [step]
    split
    · rename_i ho'
      obtain ⟨h1, h2⟩ := era_other cfg.chain s.c op ho'
      exact idle _ h1 h2
    · exact same

theorem roots_other {cfg : Cfg} {s : State} {a : Nat} {st : Bool} {c k : Nat}
    {Q R : Nat → AccId → Slashing.Exposure → Prop} {σ : Nat → Nat} {P : Nat → Nat → Prop}
    (h : Session.At (view s) a st c k) (hh : Session.Hist cfg.ses (view s) a σ P) (hR : Roots s a c Q R) (op : Op)
    (ho : ∀ o f, op ≠ .rotate o f) (hk : op.keeps) :
    ∃ st', Session.At (view (step cfg s op).1) a st' c k ∧ Session.Hist cfg.ses (view (step cfg s op).1) a σ (fun k' e => P k' e ∨ (k' = s.session ∧ e = a)) ∧
      Roots (step cfg s op).1 a c (fun j v x => Q j v x ∨ seen s j v x) (fun e v x => R e v x ∨ planned s e v x) ∧ (step cfg s op).1.session = s.session := by
  obtain ⟨op', h1, h2, h3, h4, h5, h6⟩ := other_like (cfg := cfg) h op ho hk
  obtain ⟨g1, g2, g3, g4, g5⟩ := Session.at_other cfg.ses h op' h1
  obtain ⟨d1, d2, d3, d4⟩ := Session.depth_other cfg.ses h hh.depth op' h1 h2
  have hact : s.c.slash.active = some a := by
    have : s.c.slash.active.map (·, s.started) = some (a, st) := h.active
    obtain ⟨b, hb, hbe⟩ := Option.map_eq_some_iff.1 this
    rw [hb, (Prod.mk.inj hbe).1]
  have hera : s.c.w.ledger.era = some c := h.era
  have hle := h.le
  generalize (step cfg s op).1 = s' at *
  have hs : s'.session = s.session := h3.session.trans g2
  have hv : s'.validators = s.validators := h3.validators.trans g4
  have hq : s'.queued = s.queued := h3.queued.trans g5
  have hbe : s'.c.slash.bondedEras = s.c.slash.bondedEras := congrArg Prod.snd h5
  have hev : ∀ x, a ≤ x → s'.c.stk.dele.erasValidators.get x = s.c.stk.dele.erasValidators.get x := by
    intro x hx
    have := (Session.ctl_eq h3.ctl).2.2.1
    rw [show s'.c.stk.dele.erasValidators = _ from this, d3 x hx]
    rfl
  have hlow : low s' = low s := by unfold low; rw [hbe]
  refine ⟨_, h3.at g1, h3.hist (Session.hist_other cfg.ses h hh op' h1 h2), ?_, hs⟩
  refine ⟨fun e he => by rw [hev e (by omega)]; exact hR.later e he, ?_, ?_, ?_, ?_, by rw [hbe]; exact hR.sorted, by rw [hbe, hs]; exact hR.bound, ?_⟩
  · intro hne v hv'
    rw [hev a (Nat.le_refl _)] at hne
    rw [hv] at hv'
    rw [h6 a v (Nat.le_refl _), h4, hs]
    exact hR.now hne v hv'
  · intro hne v hv'
    rw [hev c hle] at hne
    rw [hq] at hv'
    rw [h6 c v hle, h4, hs]
    exact hR.next hne v hv'
  · intro j v x hq
    rw [hs, hlow, h4]
    rcases hq with hq | ⟨a', rfl, ha', hne, hv, hx⟩
    · exact hR.past j v x hq
    · rw [hact] at ha'
      cases ha'
      obtain ⟨x', hx', hlk⟩ := hR.now hne v hv
      rw [hx] at hx'
      cases hx'
      exact ⟨Nat.le_refl _, fun _ => hlk⟩
  · intro j hj
    rw [hlow] at hj
    rw [h4]; exact hR.gone j hj
  · intro e v x hq
    have hold : e ≤ c ∧ (a ≤ e → s.c.stk.dele.stakers.get (e, v) = some x) := by
      rcases hq with hq | ⟨he, hx⟩
      · exact hR.kept e v x hq
      · rw [hera, hact] at he
        rcases he with he | he
        · cases he
          exact ⟨Nat.le_refl _, fun _ => hx⟩
        · cases he
          exact ⟨h.le, fun _ => hx⟩
    exact ⟨hold.1, fun he => by rw [h6 e v he]; exact hold.2 he⟩

/-! ### Genesis -/

/-- The planned fields depend on sessions and eras only. -/
theorem Planned.congr {s t t' : Session.State} {l : Option (List AccId)} {e idx : Nat} (h : Session.Planned s t l e idx) (hl : Like t' t) :
    Session.Planned s t' l e idx := by
  obtain ⟨c1, c2, c3, c4⟩ := Session.ctl_eq hl.ctl
  exact ⟨hl.session.trans h.session, hl.active.trans h.active, hl.bonded.trans h.bonded, hl.validators.trans h.validators, hl.force.trans h.force,
    c1.trans h.era, c4.trans h.depth, by rw [hl.eraStart]; exact h.start, by rw [hl.eraStart]; exact h.starts, by rw [c2]; exact h.points,
    by rw [c3]; exact h.vals, by rw [c3]; exact h.elected, by rw [c3]; exact h.failed⟩

/-- The stake of a validator: what is active in its ledger. -/
def stake (c : Chain.State) (v : AccId) : Balance := (((c.w.ledger.bonded.get v).bind c.w.ledger.ledgers.get).map Ledger.Ledger.active).getD 0

/-- A planned session. -/
theorem plan_exposed {cfg : Cfg} {s : State} {idx : Nat} (order : List AccId) (keys : AccId → Bool) (hp : Session.plans cfg.ses (view s) idx = true) :
    let r := newSession cfg s idx order
    let e := Delegation.nextEra (view s).del
    Session.Planned (view s) (view r.1) r.2 e idx ∧
    (∀ x v, x ≠ e → e < x + (s.c.stk.dele.historyDepth + 1) → r.1.c.stk.dele.stakers.get (x, v) = s.c.stk.dele.stakers.get (x, v)) ∧
    (∀ l, r.2 = some l → ∀ v ∈ l.filter keys, ∃ x, r.1.c.stk.dele.stakers.get (e, v) = some x ∧ look (note r.1 idx keys r.2) idx v = some x ∧
      x.own = x.total ∧ x.total = stake r.1.c v) := by
  intro r e
  obtain ⟨n1, n2, n3, n4⟩ := newSession_like cfg s idx order
  have hy := Session.newSession_yes (order := order) hp
  have hP : Session.Planned (view s) (view r.1) r.2 e idx := by
    show Session.Planned (view s) (view r.1) (newSession cfg s idx order).2 e idx
    rw [n2]
    exact Planned.congr hy n1
  have y5 := Session.ctl_stakers n1.ctl
  have ynd : (Session.newSession cfg.ses (view s) idx order).1.del = (Delegation.newEra (view s).del order).1 := by
    simp [Session.newSession, hp, Session.newEra]
  rw [ynd] at y5
  have z5 : r.1.c.stk.dele.stakers = (Delegation.newEra (view s).del order).1.stakers := y5
  obtain ⟨x1, x2⟩ := newEra_exposures (view s).del order
  refine ⟨hP, fun x v h1 h2 => ?_, fun l hl v hv => ?_⟩
  · rw [z5, x1 x v h1 h2]; rfl
  · have hel : (Delegation.newEra (view s).del order).2 = .elected e (some l) := by
      obtain ⟨_, _, _, _, l', hl', _⟩ := Session.del_newEra (view s).del order
      have : (Session.newSession cfg.ses (view s) idx order).2 = l' := by
        simp only [Session.newSession, hp, if_true, Session.newEra, hl']
      rw [hl', ← this, ← n2]
      exact congrArg _ hl
    obtain ⟨x, hx, ho, ht⟩ := x2 l hel v (List.mem_filter.1 hv).1
    refine ⟨x, by rw [z5]; exact hx, ?_, ho, ?_⟩
    · rw [hl]
      unfold look note
      rw [FMap.get_insert_self]
      simp only [Option.bind_some]
      have hera : r.1.c.w.ledger.era = some e := hP.era
      rw [look_map _ _ _ hv, hera]
      simp only [Option.getD_some, exposure]
      rw [z5, show (Delegation.newEra (view s).del order).1.stakers.get (e, v) = some x from hx]; rfl
    · rw [ht]
      have e1 : r.1.c = dele cfg s.c (.newEra order) := by
        show (if Session.plans cfg.ses (view s) idx = true then _ else _) = _
        rw [if_pos hp]
      obtain ⟨f1, f2, f3, f4, f5, f6⟩ := Delegation.enterEra_frame (view s).del (Delegation.nextEra (view s).del)
      have e2 : r.1.c.w.ledger.bonded = (Delegation.newEra (view s).del order).1.led.bonded := by rw [e1]; rfl
      have e3 : r.1.c.w.ledger.ledgers = (Delegation.newEra (view s).del order).1.led.ledgers := by rw [e1]; rfl
      have e4 : (Delegation.newEra (view s).del order).1.led = (Delegation.enterEra (view s).del (Delegation.nextEra (view s).del)).led := by
        have hst : ∀ (t : Delegation.State) e o, (Delegation.storeElected t e o).led = t.led := by
          intro t e o; cases o <;> rfl
        unfold Delegation.newEra
        simp only [hst]
        unfold Delegation.elect
        simp only
        split <;> rfl
      unfold stake
      rw [e2, e3, e4, f5, f6]

/-- A chain before any session. -/
structure Fresh (c : Chain.State) : Prop where
  staking : Session.Fresh (Chain.stkOn c).dele
  active : c.slash.active = none
  bonded : c.slash.bondedEras = []
  earliest : c.slash.earliest = none

theorem start_fresh {cfg : Cfg} {c : Chain.State} (h : c.slash.earliest = none) (n : Nat) : (Penalty.step cfg.chain c (.startEra n)).2 ≠ .halted := by
  have hd : Penalty.applied (Slashing.startEra cfg.chain.offences { c.slash with led := Chain.led c } n).2 = [] := by
    rw [Penalty.due_eq]
    unfold Penalty.due
    rw [h]
  simp only [Penalty.step]
  rw [hd]
  simp [Penalty.creditSlashes]

theorem start_like {cfg : Cfg} {s t : State} {w : Session.State} (hw : Like (view s) w) (h : startSession cfg s = some t) :
    Like (view t) (Session.startSession cfg.ses w s.session) := by
  have hna : Session.nextActive w = Session.nextActive (view s) := by unfold Session.nextActive; rw [hw.active]
  have hes : w.eraStart = s.eraStart := hw.eraStart.symm
  unfold Session.startSession
  rw [hna, hes]
  rcases start_cases h with ⟨hn, rfl⟩ | ⟨k, hk, hle, hh, rfl⟩
  · rcases hn with hn | ⟨k, hk, hn⟩
    · rw [hn]; exact hw
    · simp only [hk, if_neg hn]; exact hw
  · simp only [hk, if_pos hle]
    obtain ⟨f1, f2⟩ := era_start cfg.chain s.c s.session hh
    have hne : Slashing.nextEra s.c.slash = Session.nextActive (view s) := by
      unfold Slashing.nextEra Session.nextActive view
      cases s.c.slash.active <;> rfl
    rw [hne, prune_length] at f2
    have g1 := congrArg Prod.fst f2
    have g2 := congrArg Prod.snd f2
    have hb : w.bonded = s.c.slash.bondedEras := hw.bonded.symm
    refine ⟨hw.session, ?_, hw.eraStart, ?_, hw.force, hw.validators, hw.queued, f1.trans hw.ctl⟩
    · show (Penalty.step cfg.chain s.c (.startEra s.session)).1.slash.active.map _ = some (Session.nextActive w, false)
      rw [show (Penalty.step cfg.chain s.c (.startEra s.session)).1.slash.active = _ from g1, hna]; rfl
    · show (Penalty.step cfg.chain s.c (.startEra s.session)).1.slash.bondedEras = _
      rw [show (Penalty.step cfg.chain s.c (.startEra s.session)).1.slash.bondedEras = _ from g2]
      simp only [Session.startEra, hna, hb]

theorem start_exists {cfg : Cfg} {s : State} (h : s.c.slash.earliest = none) : ∃ t, startSession cfg s = some t := by
  unfold startSession
  split
  · exact ⟨_, rfl⟩
  · split
    · have := start_fresh (cfg := cfg) h s.session
      split
      · rename_i hh
        rw [hh] at this
        exact absurd rfl this
      · exact ⟨_, rfl⟩
    · exact ⟨_, rfl⟩

theorem genesis_roots (cfg : Cfg) {c : Chain.State} (hc : Fresh c) (f : Session.Forcing) (order fb : List AccId) :
    let s := genesis cfg c f order fb
    ∃ c' k, Session.At (view s) 0 false c' k ∧ s.session = 0 ∧ Session.Hist cfg.ses (view s) 0 (fun _ => 0) (fun _ _ => False) ∧
      Roots s 0 c' (fun _ _ _ => False) (fun _ _ _ => False) := by
  intro s
  let z : State := ⟨c, 0, false, ∅, f, [], [], ∅⟩
  have hz : view z = Session.empty (Chain.stkOn c).dele f := by
    show (⟨_, _, c.slash.active.map _, _, c.slash.bondedEras, _, _, _⟩ : Session.State) = _
    rw [hc.active, hc.bonded]; rfl
  have hp0 : Session.plans cfg.ses (view z) 0 = true := by
    rw [hz]; simp [Session.plans, Session.empty, hc.staking.era]
  obtain ⟨p1, p2, p3⟩ := plan_exposed order (fun _ => true) hp0
  have hn : Delegation.nextEra (view z).del = 0 := by
    rw [hz]; simp only [Delegation.nextEra, Session.empty, hc.staking.era]
  rw [hn] at p1 p2 p3
  have hear : (newSession cfg z 0 order).1.c.slash.earliest = none := by
    show (if Session.plans cfg.ses (view z) 0 = true then dele cfg z.c (.newEra order) else z.c).slash.earliest = none
    rw [if_pos hp0]; exact hc.earliest
  have hs0 : (newSession cfg z 0 order).1.session = 0 := rfl
  obtain ⟨n1, n2, n3, n4⟩ := newSession_like cfg z 0 order
  generalize hN0 : newSession cfg z 0 order = N0 at *
  let m0 : State := { N0.1 with roots := note N0.1 0 (fun _ => true) N0.2 }
  have hP0 : Session.Planned (Session.empty (Chain.stkOn c).dele f) (view m0) N0.2 0 0 := by rw [← hz]; exact p1
  obtain ⟨c', k, g1, g2, g3, g4, g5, g6, g7, g8⟩ := Session.genesis_from cfg.ses hc.staking f order fb (view m0, N0.2) hP0
  simp only at g1 g2 g3 g4 g5 g6 g7 g8
  have hd0 : 1 ≤ m0.c.stk.dele.historyDepth := by
    have e1 : (view m0).del.historyDepth = (Chain.stkOn c).dele.historyDepth := hP0.depth
    have e2 : 1 ≤ (view m0).del.historyDepth := by rw [e1]; exact hc.staking.depth
    exact e2
  obtain ⟨k1, k2, k3, k4⟩ := newSession_like cfg m0 1 order
  let s1 : State := { (newSession cfg m0 1 order).1 with roots := note (newSession cfg m0 1 order).1 1 (fun _ => true) (newSession cfg m0 1 order).2, validators := N0.2.getD fb, queued := (newSession cfg m0 1 order).2.getD (N0.2.getD fb) }
  have hs : s = (startSession cfg s1).getD s1 := by
    show genesis cfg c f order fb = _
    unfold genesis plan
    simp only
    rw [show newSession cfg ⟨c, 0, false, ∅, f, [], [], ∅⟩ 0 order = N0 from hN0]
  have hw : Like (view s1) { (Session.newSession cfg.ses (view m0) 1 order).1 with validators := N0.2.getD fb, queued := (Session.newSession cfg.ses (view m0) 1 order).2.getD (N0.2.getD fb) } :=
    ⟨k1.session, k1.active, k1.eraStart, k1.bonded, k1.force, rfl, by rw [← k2]; rfl, k1.ctl⟩
  have hear1 : s1.c.slash.earliest = none := by
    show (if Session.plans cfg.ses (view m0) 1 = true then dele cfg m0.c (.newEra order) else m0.c).slash.earliest = none
    split
    · exact hear
    · exact hear
  obtain ⟨t, ht⟩ := start_exists (cfg := cfg) hear1
  have hst : s = t := by rw [hs, ht]; rfl
  have hss1 : s1.session = 0 := rfl.trans hs0
  have hl := start_like hw ht
  rw [hss1] at hl
  rw [hst]
  have gA := hl.at g1
  have gH := hl.hist g3
  refine ⟨c', k, gA, hl.session.trans g2, gH, ?_⟩
  have hact : t.c.slash.active = some 0 := by
    have : t.c.slash.active.map (·, t.started) = some (0, false) := gA.active
    obtain ⟨b, hb, hbe⟩ := Option.map_eq_some_iff.1 this
    rw [hb, (Prod.mk.inj hbe).1]
  have hbond : t.c.slash.bondedEras = [(0, 0)] := by
    have : t.c.slash.bondedEras = _ := gH.bonded
    rw [this]; simp
  have hts : t.session = 0 := hl.session.trans g2
  -- from `s1` to `t`
  have htr : t.roots = s1.roots ∧ era t.c = era s1.c ∧ t.validators = s1.validators ∧ t.queued = s1.queued := by
    rcases start_cases ht with ⟨_, rfl⟩ | ⟨i, hi, hle, hh, rfl⟩
    · exact ⟨rfl, rfl, rfl, rfl⟩
    · refine ⟨?_, (era_start cfg.chain s1.c s1.session hh).1, rfl, rfl⟩
      show prune cfg _ _ = _
      unfold prune
      rw [show (Penalty.step cfg.chain s1.c (.startEra s1.session)).1.slash.active = some 0 from hact,
        show (Penalty.step cfg.chain s1.c (.startEra s1.session)).1.slash.bondedEras = [(0, 0)] from hbond]
      simp
  obtain ⟨t1, t2, t3, t4⟩ := htr
  have e3 : t.c.stk.dele.erasValidators = s1.c.stk.dele.erasValidators := (Session.ctl_eq t2).2.2.1
  have e5 : t.c.stk.dele.stakers = s1.c.stk.dele.stakers := (Session.ctl_stakers t2 : (Chain.stkOn t.c).dele.stakers = (Chain.stkOn s1.c).dele.stakers)
  have hc'e : t.c.w.ledger.era = some c' := gA.era
  have e1 : s1.c.w.ledger.era = some c' := by rw [← hc'e]; exact (Session.ctl_eq t2).1.symm
  have hlow : low t = 0 := by unfold low; rw [hbond]; rfl
  have hm0e : m0.c.w.ledger.era = some 0 := hP0.era
  have hm0v : ∀ e, e ≠ 0 → m0.c.stk.dele.erasValidators.get e = none := by
    intro e he
    have := hP0.vals e he
    rw [show m0.c.stk.dele.erasValidators.get e = _ from this]
    split
    · rfl
    · exact hc.staking.vals e
  have hs1r : s1.roots = note (newSession cfg m0 1 order).1 1 (fun _ => true) (newSession cfg m0 1 order).2 := rfl
  have hs1c : s1.c = (newSession cfg m0 1 order).1.c := rfl
  have hs1q : s1.queued = (newSession cfg m0 1 order).2.getD (N0.2.getD fb) := rfl
  have hr0 : s1.roots.get 0 = m0.roots.get 0 := by
    rw [hs1r, note_other _ _ _ _ (by omega), k3]
  have hm0x : m0.c.stk.dele.erasValidators.get 0 ≠ none → ∀ v ∈ s1.validators, ∃ x, m0.c.stk.dele.stakers.get (0, v) = some x ∧ look m0.roots 0 v = some x := by
    intro hne v hv
    cases hl0 : N0.2 with
    | none => exact absurd (p1.failed hl0 (by rw [hz]; exact hc.staking.vals 0)) hne
    | some l =>
      have hv' : v ∈ l := by
        have : s1.validators = l := by show N0.2.getD fb = l; rw [hl0]; rfl
        rw [this] at hv; exact hv
      obtain ⟨x, hx, hlk, _⟩ := p3 l hl0 v (by simpa using hv')
      exact ⟨x, hx, hlk⟩
  have hkey : (s1.c.stk.dele.erasValidators.get 0 = m0.c.stk.dele.erasValidators.get 0) ∧ (∀ v, s1.c.stk.dele.stakers.get (0, v) = m0.c.stk.dele.stakers.get (0, v)) ∧
      (s1.c.stk.dele.erasValidators.get c' ≠ none → ∀ v ∈ s1.queued, ∃ x, s1.c.stk.dele.stakers.get (c', v) = some x ∧ look s1.roots 1 v = some x) := by
    cases hp1 : Session.plans cfg.ses (view m0) 1 with
    | false =>
      have hns := newSession_stays (order := order) hp1
      have q1 : s1.c = m0.c := by rw [hs1c, hns]
      have q2 : s1.queued = s1.validators := by rw [hs1q, hns]; rfl
      have q3 : c' = 0 := by
        rw [q1, hm0e] at e1
        exact (Option.some.inj e1).symm
      subst q3
      refine ⟨by rw [q1], fun v => by rw [q1], fun hne v hv => ?_⟩
      rw [q1] at hne ⊢
      rw [q2] at hv
      obtain ⟨x, hx, hlk⟩ := hm0x hne v hv
      refine ⟨x, hx, ?_⟩
      obtain ⟨r, hr⟩ := look_some hlk
      rw [← hlk]
      apply look_congr
      rw [hs1r, hns]
      unfold note
      simp only [Nat.sub_self, hr]
      exact FMap.get_insert_self _ _ _
    | true =>
      obtain ⟨w1, w2, w3⟩ := plan_exposed order (fun _ => true) hp1
      have hn1 : Delegation.nextEra (view m0).del = 1 := by
        have : (view m0).del.led.era = some 0 := hm0e
        simp only [Delegation.nextEra, this]
      rw [hn1] at w1 w2 w3
      have q3 : c' = 1 := Option.some.inj (e1.symm.trans w1.era)
      subst q3
      refine ⟨?_, fun v => w2 0 v (by omega) (by omega), fun hne v hv => ?_⟩
      · have := w1.vals 0 (by omega)
        have hdd : (view m0).del.historyDepth = m0.c.stk.dele.historyDepth := rfl
        rw [if_neg (by omega)] at this
        exact this
      · cases hl1 : (newSession cfg m0 1 order).2 with
        | none => exact absurd (w1.failed hl1 (hm0v 1 (by omega))) hne
        | some l =>
          rw [hs1q, hl1] at hv
          obtain ⟨x, hx, hlk, _⟩ := w3 l hl1 v (by simpa using hv)
          exact ⟨x, hx, hlk⟩
  obtain ⟨r1, r2, r3⟩ := hkey
  refine ⟨fun e he => ?_, ?_, ?_, fun _ _ _ h => h.elim, fun j hj => by omega, by rw [hbond]; exact List.pairwise_singleton _ _, ?_, fun _ _ _ h => h.elim⟩
  · have := g7 e he
    have e := (Session.ctl_eq hl.ctl).2.2.1
    rw [show t.c.stk.dele.erasValidators = _ from e]
    exact this
  · intro hne v hv
    rw [e3, r1] at hne
    rw [t3] at hv
    obtain ⟨x, hx, hlk⟩ := hm0x hne v hv
    refine ⟨x, by rw [e5, r2]; exact hx, ?_⟩
    rw [hts, ← hlk]
    exact look_congr v (by rw [t1]; exact hr0)
  · intro hne v hv
    rw [e3] at hne
    rw [t4] at hv
    obtain ⟨x, hx, hlk⟩ := r3 hne v hv
    refine ⟨x, by rw [e5]; exact hx, ?_⟩
    rw [hts, t1]
    exact hlk
  · rw [hbond, hts]
    intro p hp
    rw [List.mem_singleton.1 hp]

/-! ### Histories -/

theorem run_snoc (cfg : Cfg) (ops : List Op) (op : Op) : ∀ s : State,
    run cfg s (ops ++ [op]) = ((step cfg (run cfg s ops).1 op).1, (run cfg s ops).2 ++ [((run cfg s ops).1, op, (step cfg (run cfg s ops).1 op).2)]) := by
  induction ops with
  | nil => intro s; rfl
  | cons o ops ih => intro s; simp [run, ih]

/-- Everything known about a history that keeps at least one era. -/
theorem facts (cfg : Cfg) {c0 : Chain.State} (hc : Fresh c0) (f : Session.Forcing) (order fb : List AccId) (ops : List Op) (hk : ∀ op ∈ ops, op.keeps) :
    let r := run cfg (genesis cfg c0 f order fb) ops
    ∃ a st c k σ, Session.At (view r.1) a st c k ∧
      Session.Hist cfg.ses (view r.1) a σ (fun k' e => ∃ y ∈ r.2, y.1.session = k' ∧ y.1.c.slash.active = some e) ∧
      Roots r.1 a c (fun j v x => ∃ y ∈ r.2, seen y.1 j v x) (fun e v x => ∃ y ∈ r.2, planned y.1 e v x) := by
  induction ops using List.reverseRecOn with
  | nil =>
    obtain ⟨c', k, h1, _, h3, h4⟩ := genesis_roots cfg hc f order fb
    refine ⟨0, false, c', k, fun _ => 0, h1, ⟨h3.depth, h3.mono, h3.le, h3.start, h3.bonded, ?_⟩,
      ⟨h4.later, h4.now, h4.next, ?_, h4.gone, h4.sorted, h4.bound, ?_⟩⟩
    · rintro _ _ ⟨y, hy, _⟩; cases hy
    · rintro _ _ _ ⟨y, hy, _⟩; cases hy
    · rintro _ _ _ ⟨y, hy, _⟩; cases hy
  | append_singleton ops op ih =>
    obtain ⟨a, st, c, k, σ, h1, h2, h3⟩ := ih fun o ho => hk o (List.mem_append_left _ ho)
    have hop := hk op (List.mem_append_right _ (List.mem_singleton_self _))
    intro r
    have hr : r = _ := run_snoc cfg ops op _
    rw [hr]
    generalize run cfg (genesis cfg c0 f order fb) ops = q at *
    have hact : q.1.c.slash.active = some a := by
      have : q.1.c.slash.active.map (·, q.1.started) = some (a, st) := h1.active
      obtain ⟨b, hb, hbe⟩ := Option.map_eq_some_iff.1 this
      rw [hb, (Prod.mk.inj hbe).1]
    have main : ∃ a' st' c' k' σ', Session.At (view (step cfg q.1 op).1) a' st' c' k' ∧
        Session.Hist cfg.ses (view (step cfg q.1 op).1) a' σ' (fun k' e => (∃ y ∈ q.2, y.1.session = k' ∧ y.1.c.slash.active = some e) ∨ (k' = q.1.session ∧ e = a)) ∧
        Roots (step cfg q.1 op).1 a' c' (fun j v x => (∃ y ∈ q.2, seen y.1 j v x) ∨ seen q.1 j v x) (fun e v x => (∃ y ∈ q.2, planned y.1 e v x) ∨ planned q.1 e v x) := by
      by_cases ho : ∀ o f, op ≠ .rotate o f
      · obtain ⟨st', g1, g2, g3, _⟩ := roots_other h1 h2 h3 op ho hop
        exact ⟨_, _, _, _, _, g1, g2, g3⟩
      · push Not at ho
        obtain ⟨o, keys, rfl⟩ := ho
        cases hrot : rotate cfg q.1 o keys with
        | none =>
          have e : (step cfg q.1 (.rotate o keys)).1 = q.1 := by simp only [step, hrot]
          have e' : (step cfg q.1 (.other (.startEra 0))).1 = q.1 := by simp [step, isOther]
          obtain ⟨st', g1, g2, g3, _⟩ := roots_other (cfg := cfg) h1 h2 h3 (.other (.startEra 0)) (by simp) trivial
          rw [e'] at g1 g2 g3
          rw [e]
          exact ⟨_, _, _, _, _, g1, g2, g3⟩
        | some t =>
          have e : (step cfg q.1 (.rotate o keys)).1 = t := by simp only [step, hrot]
          obtain ⟨st', c', k', σ', g1, g2, g3, _⟩ := roots_rotate h1 h2 h3 hrot
          rw [e]
          exact ⟨_, _, _, _, _, g1, g2, g3⟩
    obtain ⟨a', st', c', k', σ', g1, g2, g3⟩ := main
    refine ⟨a', st', c', k', σ', g1, ⟨g2.depth, g2.mono, g2.le, g2.start, g2.bonded, ?_⟩, ⟨g3.later, g3.now, g3.next, ?_, g3.gone, g3.sorted, g3.bound, ?_⟩⟩
    · rintro k1 e ⟨y, hy, hy1, hy2⟩
      apply g2.past
      rcases List.mem_append.1 hy with hy | hy
      · exact .inl ⟨y, hy, hy1, hy2⟩
      · rw [List.mem_singleton.1 hy] at hy1 hy2
        refine .inr ⟨hy1.symm, ?_⟩
        have := hact.symm.trans hy2
        exact (Option.some.inj this).symm
    · rintro j v x ⟨y, hy, hs⟩
      apply g3.past
      rcases List.mem_append.1 hy with hy | hy
      · exact .inl ⟨y, hy, hs⟩
      · rw [List.mem_singleton.1 hy] at hs
        exact .inr hs
    · rintro e v x ⟨y, hy, hs⟩
      apply g3.kept
      rcases List.mem_append.1 hy with hy | hy
      · exact .inl ⟨y, hy, hs⟩
      · rw [List.mem_singleton.1 hy] at hs
        exact .inr hs

end Verif.Epoch
