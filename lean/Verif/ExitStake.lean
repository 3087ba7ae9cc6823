import Verif.ChainViews
import Verif.LedgerExit
import Verif.SlashingRemoval

/-
C138 on the whole chain: whatever happens in the other pallets, whatever offences are reported and whatever is paid
out, who has bonded gets the stake out with a few calls. No definitions of code; the calls are those of `Chain`.
-/

namespace Verif.Chain

open Verif.Ledger (Within Young DueBy concerns Untouched)

/-! ### The ledger while somebody leaves -/

/-- What is kept about the ledger while the stash `a` leaves. -/
structure Going (lc : Ledger.Cfg) (a c : AccId) (x n b : Nat) (s : Ledger.State) : Prop where
  inv : Ledger.Inv lc s
  young : Young lc s
  within : Within s a c x n b
  payee : s.bonded.get a = none ∨ ∃ d, s.payees.get a = some d ∧ d ≠ .staked

variable {lc : Ledger.Cfg} {a c : AccId} {x n b : Nat}

theorem Going.env {s s' : Ledger.State} (h : Going lc a c x n b s) (h1 : s'.bonded = s.bonded) (h2 : s'.ledgers = s.ledgers)
    (h3 : s'.payees = s.payees) (h4 : s'.locks = s.locks) (h5 : s'.era = s.era) : Going lc a c x n b s' := by
  refine ⟨⟨?_, ?_, ?_, ?_, ?_⟩, ?_, Ledger.within_same h.within h1 h2, by rw [h1, h3]; exact h.payee⟩
  · rw [h1, h2]; exact h.inv.forward
  · rw [h1, h2]; exact h.inv.back
  · rw [h2]; exact h.inv.balanced
  · rw [h2, h4]; exact h.inv.lock
  · rw [h1, h4]; exact h.inv.noLock
  · unfold Young; rw [h2, h5]; exact h.young

/-- A step of the ledger which does not concern the stash. -/
theorem Going.other {s : Ledger.State} (h : Going lc a c x n b s) (op : Ledger.Op) (hc : ¬ concerns s a op) :
    Going lc a c x n b (Ledger.step lc s op).1 := by
  have hu := Ledger.untouched_step lc h.inv op a hc
  exact ⟨h.inv.change (Ledger.step_change lc s op), Ledger.young_step lc h.young op, Ledger.within_untouched h.within hu,
    by rw [hu.bonded, hu.payee]; exact h.payee⟩

theorem payout_bank {s : Ledger.State} (h : s.bonded.get a = none ∨ ∃ d, s.payees.get a = some d ∧ d ≠ .staked) (v : Balance) :
    ∃ b, Ledger.payout lc s a v = { s with bank := b } := by
  unfold Ledger.payout
  split
  · split
    · exact ⟨s.bank, rfl⟩
    · exact ⟨_, rfl⟩
  · exact ⟨_, rfl⟩
  · rename_i hd
    rcases h with h | ⟨d, h1, h2⟩
    · rw [h]; exact ⟨s.bank, rfl⟩
    · rw [h1] at hd; exact absurd hd h2
  · exact ⟨_, rfl⟩

theorem Going.payout {s : Ledger.State} (h : Going lc a c x n b s) (y : AccId) (v : Balance) :
    Going lc a c x n b (Ledger.payout lc s y v) := by
  by_cases hy : y = a
  · subst hy
    obtain ⟨k, hk⟩ := payout_bank (lc := lc) h.payee v
    rw [hk]
    exact h.env rfl rfl rfl rfl rfl
  · exact h.other (.payout y v) hy

theorem slash_payee (s : Ledger.State) (y : AccId) (v : Balance) :
    (Ledger.doSlash lc s y v).1.bonded = s.bonded ∧ (Ledger.doSlash lc s y v).1.payees = s.payees := by
  unfold Ledger.doSlash
  split
  · exact ⟨rfl, rfl⟩
  split
  · exact ⟨rfl, rfl⟩
  simp only
  split
  · exact ⟨rfl, rfl⟩
  · simp only [Ledger.updateLedger, Ledger.setLock]
    split
    · exact ⟨rfl, rfl⟩
    · exact ⟨rfl, rfl⟩

theorem Going.slash {s : Ledger.State} (h : Going lc a c x n b s) (y : AccId) (v : Balance) :
    Going lc a c x n b (Ledger.doSlash lc s y v).1 := by
  by_cases hy : y = a
  · subst hy
    obtain ⟨e1, e2⟩ := slash_payee (lc := lc) s y v
    exact ⟨h.inv.change (Ledger.step_change lc s (.slash y v)), Ledger.young_step lc h.young (.slash y v),
      Ledger.within_slash lc h.within v, by rw [e1, e2]; exact h.payee⟩
  · exact h.other (.slash y v) hy

/-- Being reaped, or unstaked by root. -/
theorem Going.removed {s : Ledger.State} (h : Going lc a c x n b s) {op : Ledger.Op}
    (ho : (∃ k, op = .reap a k) ∨ ∃ r k, op = .forceUnstake r a k) : Going lc a c x n b (Ledger.step lc s op).1 := by
  refine ⟨h.inv.change (Ledger.step_change lc s op), Ledger.young_step lc h.young op,
    Ledger.within_suffers lc h.within (.inr (.inr (.inr ho))), ?_⟩
  rcases ho with ⟨k, rfl⟩ | ⟨r, k, rfl⟩
  · rcases Ledger.step_cases lc s (.reap a k) with ⟨r, hr, hs⟩ | ⟨e, hr, hs⟩
    · rw [hs]
      simp only [Ledger.body, Ledger.reap] at hr
      split at hr
      · cases hr
      split at hr
      · cases hr
      · rename_i hk
        cases hr
        have h0 := Ledger.killed_none hk
        unfold Ledger.removeLock
        exact .inl h0
    · rw [hs]; exact h.payee
  · rcases Ledger.step_cases lc s (.forceUnstake r a k) with ⟨q, hr, hs⟩ | ⟨e, hr, hs⟩
    · rw [hs]
      simp only [Ledger.body, Ledger.forceUnstake] at hr
      split at hr
      · cases hr
      split at hr
      · cases hr
      · rename_i hk
        cases hr
        have h0 := Ledger.killed_none hk
        unfold Ledger.removeLock
        exact .inl h0
    · rw [hs]; exact h.payee

theorem going_pays : Pays lc (fun s t => Going lc a c x n b s → Going lc a c x n b t) where
  refl := fun _ h => h
  trans := fun f g h => g (f h)
  mint := fun _ _ _ h => h.env rfl rfl rfl rfl rfl
  payout := fun _ y v h => h.payout y v
  era := fun _ h => h.other .newEra (fun k => k)

theorem going_punishes : Punishes lc (fun s t => Going lc a c x n b s → Going lc a c x n b t) where
  refl := fun _ h => h
  trans := fun f g h => g (f h)
  mint := fun _ _ _ h => h.env rfl rfl rfl rfl rfl
  slash := fun _ y v h => h.slash y v

theorem going_carries {sc : Slashing.Cfg} (hc : sc.led = lc) : Carries sc (fun s t => Going lc a c x n b s → Going lc a c x n b t) where
  refl := fun _ h => h
  trans := fun f g h => g (f h)
  kick := fun _ _ h => h.env rfl rfl rfl rfl rfl
  apply := fun s u => applySlash_carries going_punishes hc s u

/-! ### The chain while somebody leaves -/

/-- A step of the chain which is not done by the stash `a` or its controller, and in which the root does not remove the lock
of a stake. Reports of offences, slashes, rewards, eras, the calls of all other pallets, reaping and unstaking by root are
allowed. -/
def Waits (a : AccId) (d : State) : Op → Prop
  | .bond op _ => ¬ concerns (led d) a op ∨ (∃ k, op = .reap a k) ∨ ∃ r k, op = .forceUnstake r a k
  | .world (.unlockStake true _) => False
  | _ => True

/-- The same for a history. -/
def WaitsAll (cfg : Cfg) (a : AccId) : State → List Op → Prop
  | _, [] => True
  | d, op :: ops => Waits a d op ∧ WaitsAll cfg a (step cfg d op) ops

theorem going_put {w : World.State} {s : Ledger.State} (h : Going lc a c x n b s) :
    Going lc a c x n b { (put w s).ledger with bank := (put w s).bank } := h.env rfl rfl rfl rfl rfl

theorem concerns_spans (s : Ledger.State) (k : Bool) (op : Ledger.Op) : concerns s a (Slashing.withSpans k op) ↔ concerns s a op := by
  cases op <;> exact Iff.rfl

theorem going_step (cfg : Cfg) (d : State) (op : Op) (h : Going cfg.world.ledger a c x n b (led d)) (hw : Waits a d op) :
    Going cfg.world.ledger a c x n b (led (step cfg d op)) := by
  cases op with
  | world op =>
    simp only [step]
    split
    swap
    · exact h
    rename_i ho
    by_cases hl : ∃ o, op = .ledger o
    · obtain ⟨o, rfl⟩ := hl
      cases o with
      | external b' o' cl => exact h.env rfl rfl rfl rfl rfl
      | _ => cases ho
    · have hk : World.keepsStakeLocks op = true := by
        cases op with
        | unlockStake r y => cases r with | true => exact absurd hw id | false => rfl
        | _ => rfl
      have e := World.effect_ledger (cfg := cfg.world) (w := d.w) op (fun o e => hl ⟨o, e⟩) hk
      refine h.env ?_ ?_ ?_ ?_ ?_
      · exact congrArg (·.bonded) e
      · exact congrArg (·.ledgers) e
      · exact congrArg (·.payees) e
      · exact congrArg (·.locks) e
      · exact congrArg (·.era) e
  | bond op m =>
    simp only [step]
    split
    swap
    · exact h
    refine going_put ?_
    rw [bond_led]
    rcases hw with hc | hr
    · exact h.other _ (fun hh => hc ((concerns_spans _ _ _).1 hh))
    · refine h.removed ?_
      rcases hr with ⟨k, rfl⟩ | ⟨r, k, rfl⟩
      · exact .inl ⟨_, rfl⟩
      · exact .inr ⟨_, _, rfl⟩
  | dele op =>
    simp only [step]
    split
    swap
    · exact h
    rename_i hd
    exact going_put (dele_carries (dc := cfg.dele) (going_pays (lc := cfg.world.ledger)) rfl (stkOn d).dele op hd h)
  | stake op =>
    refine going_put ?_
    rcases stake_led cfg.stake (stkOn d) op with e | ⟨y, v, b', -, e⟩
    · rw [e]; exact h
    · rw [e]; exact h.env rfl rfl rfl rfl rfl
  | credit op =>
    simp only [step]
    split
    · exact h.env rfl rfl rfl rfl rfl
    · exact h
  | slash op =>
    simp only [step]
    split
    swap
    · exact h
    rename_i hd
    exact going_put (slash_carries (sc := cfg.offences) (going_carries (lc := cfg.world.ledger) rfl) { d.slash with led := led d } op hd h)
  | adsc op =>
    simp only [step]
    split
    · exact h.env rfl rfl rfl rfl rfl
    · exact h

theorem going_run (cfg : Cfg) (ops : List Op) : ∀ d : State, Going cfg.world.ledger a c x n b (led d) → WaitsAll cfg a d ops →
    Going cfg.world.ledger a c x n b (led (run cfg d ops)) := by
  induction ops with
  | nil => intro d h _; exact h
  | cons op ops ih => intro d h hw; exact ih _ (going_step cfg d op h hw.1) hw.2

/-! ### The ledger after any history -/

/-- What holds for the ledger after any history. -/
def Base (lc : Ledger.Cfg) (s : Ledger.State) : Prop := Ledger.Inv lc s ∧ Young lc s

theorem base_step {s : Ledger.State} (h : Base lc s) (op : Ledger.Op) : Base lc (Ledger.step lc s op).1 :=
  ⟨h.1.change (Ledger.step_change lc s op), Ledger.young_step lc h.2 op⟩

theorem base_env {s s' : Ledger.State} (h : Base lc s) (h1 : s'.bonded = s.bonded) (h2 : s'.ledgers = s.ledgers)
    (h4 : s'.locks = s.locks) (h5 : s'.era = s.era) : Base lc s' := by
  refine ⟨⟨?_, ?_, ?_, ?_, ?_⟩, ?_⟩
  · rw [h1, h2]; exact h.1.forward
  · rw [h1, h2]; exact h.1.back
  · rw [h2]; exact h.1.balanced
  · rw [h2, h4]; exact h.1.lock
  · rw [h1, h4]; exact h.1.noLock
  · unfold Young; rw [h2, h5]; exact h.2

theorem base_pays : Pays lc (fun s t => Base lc s → Base lc t) where
  refl := fun _ h => h
  trans := fun f g h => g (f h)
  mint := fun _ _ _ h => base_env h rfl rfl rfl rfl
  payout := fun _ y v h => base_step h (.payout y v)
  era := fun _ h => base_step h .newEra

theorem base_punishes : Punishes lc (fun s t => Base lc s → Base lc t) where
  refl := fun _ h => h
  trans := fun f g h => g (f h)
  mint := fun _ _ _ h => base_env h rfl rfl rfl rfl
  slash := fun _ y v h => base_step h (.slash y v)

theorem base_carries {sc : Slashing.Cfg} (hc : sc.led = lc) : Carries sc (fun s t => Base lc s → Base lc t) where
  refl := fun _ h => h
  trans := fun f g h => g (f h)
  kick := fun _ _ h => base_env h rfl rfl rfl rfl
  apply := fun s u => applySlash_carries base_punishes hc s u

theorem base_chain (cfg : Cfg) (d : State) (op : Op) (h : Base cfg.world.ledger (led d)) (hw : KeepsStakes op) :
    Base cfg.world.ledger (led (step cfg d op)) := by
  cases op with
  | world op =>
    simp only [step]
    split
    swap
    · exact h
    rename_i ho
    by_cases hl : ∃ o, op = .ledger o
    · obtain ⟨o, rfl⟩ := hl
      cases o with
      | external b' o' cl => exact base_env h rfl rfl rfl rfl
      | _ => cases ho
    · have hk : World.keepsStakeLocks op = true := by
        cases op with
        | unlockStake r y => cases r with | true => exact absurd hw id | false => rfl
        | _ => rfl
      have e := World.effect_ledger (cfg := cfg.world) (w := d.w) op (fun o e => hl ⟨o, e⟩) hk
      refine base_env h ?_ ?_ ?_ ?_
      · exact congrArg (·.bonded) e
      · exact congrArg (·.ledgers) e
      · exact congrArg (·.locks) e
      · exact congrArg (·.era) e
  | bond op m =>
    simp only [step]
    split
    swap
    · exact h
    refine base_env (s := (Slashing.ledgerCall cfg.offences { d.slash with led := led d } op m).1.led) ?_ rfl rfl rfl rfl
    rw [bond_led]
    exact base_step h _
  | dele op =>
    simp only [step]
    split
    swap
    · exact h
    rename_i hd
    exact base_env (dele_carries (dc := cfg.dele) (base_pays (lc := cfg.world.ledger)) rfl (stkOn d).dele op hd h) rfl rfl rfl rfl
  | stake op =>
    refine base_env (s := (StakingCredit.step cfg.stake (stkOn d) op).1.dele.led) ?_ rfl rfl rfl rfl
    rcases stake_led cfg.stake (stkOn d) op with e | ⟨y, v, b', -, e⟩
    · rw [e]; exact h
    · rw [e]; exact base_env h rfl rfl rfl rfl
  | credit op =>
    simp only [step]
    split
    · exact base_env h rfl rfl rfl rfl
    · exact h
  | slash op =>
    simp only [step]
    split
    swap
    · exact h
    rename_i hd
    exact base_env (slash_carries (sc := cfg.offences) (base_carries (lc := cfg.world.ledger) rfl) { d.slash with led := led d } op hd h) rfl rfl rfl rfl
  | adsc op =>
    simp only [step]
    split
    · exact base_env h rfl rfl rfl rfl
    · exact h

theorem base_run (cfg : Cfg) (ops : List Op) : ∀ d : State, Base cfg.world.ledger (led d) → (∀ op ∈ ops, KeepsStakes op) →
    Base cfg.world.ledger (led (run cfg d ops)) := by
  induction ops with
  | nil => intro d h _; exact h
  | cons op ops ih =>
    intro d h hw
    exact ih _ (base_chain cfg d op h (hw op List.mem_cons_self)) fun o ho => hw o (List.mem_cons_of_mem _ ho)

/-! ### The own calls -/

theorem led_bond (cfg : Cfg) (d : State) (op : Ledger.Op) (m : Nat) (ho : bondOwn op = true) :
    let t := (Ledger.step cfg.world.ledger (led d)
      (Slashing.withSpans (Slashing.spansOk { d.slash with led := led d } m (Slashing.target (led d) op)) op)).1
    let u := led (step cfg d (.bond op m))
    u.bonded = t.bonded ∧ u.ledgers = t.ledgers ∧ u.payees = t.payees ∧ u.locks = t.locks ∧ u.era = t.era ∧ u.closed = t.closed := by
  intro t u
  have e : u = { (put d.w (Slashing.ledgerCall cfg.offences { d.slash with led := led d } op m).1.led).ledger with
      bank := (put d.w (Slashing.ledgerCall cfg.offences { d.slash with led := led d } op m).1.led).bank } := by
    show led (step cfg d (.bond op m)) = _
    simp only [step, ho, if_true]
    rfl
  rw [bond_led] at e
  rw [e]
  exact ⟨rfl, rfl, rfl, rfl, rfl, rfl⟩

/-- Directing the rewards to the stash. -/
theorem going_payee (cfg : Cfg) {d : State} {l : Ledger.Ledger} (h : Base cfg.world.ledger (led d)) (hb : d.w.ledger.bonded.get a = some c)
    (hl : d.w.ledger.ledgers.get c = some l) (m : Nat) :
    let d' := step cfg d (.bond (.setPayee c .stash) m)
    Going cfg.world.ledger a c l.active l.unlocking.length (d.w.ledger.era.getD 0 + cfg.world.ledger.bondingDuration) (led d') ∧
    d'.w.ledger.closed = d.w.ledger.closed ∧ d'.w.ledger.era = d.w.ledger.era := by
  intro d'
  have hst : l.stash = a := by
    obtain ⟨l', g1, g2⟩ := h.1.forward a c hb
    rw [show (led d).ledgers.get c = some l from hl] at g1
    cases g1; exact g2
  have e0 : (Ledger.step cfg.world.ledger (led d) (.setPayee c .stash)).1 = { led d with payees := (led d).payees.insert l.stash .stash } := by
    show (match Ledger.setPayee (led d) c .stash with | .ok r => r | .error e => (led d, Ledger.Out.failed e)).1 = _
    unfold Ledger.setPayee
    rw [show (led d).ledgers.get c = some l from hl]
  obtain ⟨e1, e2, e3, e4, e5, e6⟩ := led_bond cfg d (.setPayee c .stash) m rfl
  simp only [Slashing.withSpans, e0] at e1 e2 e3 e4 e5 e6
  have hbase := base_chain cfg d (.bond (.setPayee c .stash) m) h trivial
  refine ⟨⟨hbase.1, hbase.2, .inr ⟨?_, l, ?_, hst, Nat.le_refl _, Nat.le_refl _, h.2 c l hl⟩, .inr ⟨.stash, ?_, by decide⟩⟩, e6, e5⟩
  · exact (congrArg (fun f => f.get a) e1).trans hb
  · exact (congrArg (fun f => f.get c) e2).trans hl
  · refine (congrArg (fun f => f.get a) e3).trans ?_
    rw [hst]
    exact FMap.get_insert_self _ _ _

theorem unbond_fields (s : Ledger.State) (v : Balance) :
    (Ledger.step lc s (.unbond c v)).1.bonded = s.bonded ∧ (Ledger.step lc s (.unbond c v)).1.payees = s.payees := by
  rcases Ledger.step_cases lc s (.unbond c v) with ⟨r, hr, hs⟩ | ⟨e, hr, hs⟩
  · rw [hs]
    simp only [Ledger.body, Ledger.unbond] at hr
    split at hr
    · cases hr
    split at hr
    · cases hr
    split at hr
    · cases hr
    split at hr
    · cases hr; exact ⟨rfl, rfl⟩
    cases hr
    simp only [Ledger.updateLedger, Ledger.setLock]
    split
    · exact ⟨rfl, rfl⟩
    · exact ⟨rfl, rfl⟩
  · rw [hs]; exact ⟨rfl, rfl⟩

/-- Unbonding everything. -/
theorem going_unbond (cfg : Cfg) {d : State} (h : Going cfg.world.ledger a c x n b (led d)) (hcl : d.w.ledger.closed = true)
    (hn : n < cfg.world.ledger.maxChunks) (hb : d.w.ledger.era.getD 0 + cfg.world.ledger.bondingDuration ≤ b) (v : Balance)
    (hv : x ≤ v) (m : Nat) : Going cfg.world.ledger a c 0 (n + 1) b (led (step cfg d (.bond (.unbond c v) m))) := by
  have w := Ledger.unbond_all cfg.world.ledger h.within hcl hn hb v hv
  obtain ⟨f1, f2⟩ := unbond_fields (lc := cfg.world.ledger) (c := c) (led d) v
  obtain ⟨e1, e2, e3, -⟩ := led_bond cfg d (.unbond c v) m rfl
  simp only [Slashing.withSpans] at e1 e2 e3
  have hbase := base_chain cfg d (.bond (.unbond c v) m) ⟨h.inv, h.young⟩ trivial
  exact ⟨hbase.1, hbase.2, Ledger.within_same w e1 e2, by rw [e1, e3, f1, f2]; exact h.payee⟩

theorem withdraw_fields (s : Ledger.State) :
    let t := (Ledger.step lc s (.withdraw c true)).1
    t.closed = s.closed ∧ ((t.bonded = s.bonded ∧ t.payees = s.payees) ∨
      ∃ y, t.bonded = s.bonded.erase y ∧ t.payees = s.payees.erase y) := by
  intro t
  show (Ledger.step lc s (.withdraw c true)).1.closed = _ ∧ _
  rcases Ledger.step_cases lc s (.withdraw c true) with ⟨r, hr, hs⟩ | ⟨e, hr, hs⟩
  · have ht : t = r.1 := congrArg Prod.fst hs
    rw [hs, ht]
    simp only [Ledger.body, Ledger.withdraw] at hr
    split at hr
    · cases hr
    split at hr
    · cases hr
    split at hr
    · split at hr
      · cases hr
      · rename_i hk
        cases hr
        obtain ⟨c', -, rfl⟩ := Ledger.killStash_ok hk
        exact ⟨rfl, .inr ⟨_, rfl, rfl⟩⟩
    · cases hr
      simp only [Ledger.updateLedger, Ledger.setLock]
      split
      · exact ⟨rfl, .inl ⟨rfl, rfl⟩⟩
      · exact ⟨rfl, .inl ⟨rfl, rfl⟩⟩
  · have ht : t = s := congrArg Prod.fst hs
    rw [hs, ht]; exact ⟨rfl, .inl ⟨rfl, rfl⟩⟩

/-- Withdrawing when everything is due, with a sufficient number of spans. -/
theorem going_withdraw (cfg : Cfg) {d : State} {now : Nat} (h : Going cfg.world.ledger a c x n b (led d)) (hcl : d.w.ledger.closed = true)
    (he : d.w.ledger.era = some now) (hb : b ≤ now) (k : Bool) (m : Nat) (hm : ∀ sp, d.slash.spans.get a = some sp → sp.prior.length + 1 ≤ m) :
    let d' := step cfg d (.bond (.withdraw c k) m)
    Going cfg.world.ledger a c x 0 0 (led d') ∧ (d.w.ledger.bonded.get a ≠ none → d'.w.ledger.closed = true ∧ d'.w.ledger.era = some now) ∧
    (x = 0 → d'.w.ledger.bonded.get a = none) := by
  intro d'
  by_cases hn : (led d).bonded.get a = none
  · have hg := going_step cfg d (.bond (.withdraw c k) m) h (.inl (by show ¬ (led d).bonded.get a = some c; rw [hn]; intro hh; cases hh))
    have hu := Ledger.untouched_step cfg.world.ledger h.inv
      (Slashing.withSpans (Slashing.spansOk { d.slash with led := led d } m (Slashing.target (led d) (.withdraw c k))) (.withdraw c k)) a
      (fun hh => by
        have : (led d).bonded.get a = some c := hh
        rw [hn] at this; cases this)
    obtain ⟨e1, -⟩ := led_bond cfg d (.withdraw c k) m rfl
    have hz : (led d').bonded.get a = none := (congrArg (fun f => f.get a) e1).trans (hu.bonded.trans hn)
    exact ⟨⟨hg.inv, hg.young, .inl hz, .inl hz⟩, fun hh => absurd hn hh, fun _ => hz⟩
  · obtain hh | ⟨h1, l, h2, h3, h4⟩ := h.within
    · exact absurd hh hn
    have hs := (Slashing.C138_spans cfg.offences { d.slash with led := led d } a c l k m hm).1 h2 h3
    have hsp : (Ledger.step cfg.world.ledger (led d)
      (Slashing.withSpans (Slashing.spansOk { d.slash with led := led d } m (Slashing.target (led d) (.withdraw c k))) (.withdraw c k))).1 =
        (Ledger.step cfg.world.ledger (led d) (.withdraw c true)).1 := by
      exact (bond_led cfg.offences { d.slash with led := led d } (.withdraw c k) m).symm.trans hs
    obtain ⟨e1, e2, e3, e4, e5, e6⟩ := led_bond cfg d (.withdraw c k) m rfl
    rw [hsp] at e1 e2 e3 e4 e5 e6
    obtain ⟨w1, w2⟩ := Ledger.withdraw_all cfg.world.ledger h.within hcl he hb
    obtain ⟨f1, f2⟩ := withdraw_fields (lc := cfg.world.ledger) (c := c) (led d)
    have hbase := base_chain cfg d (.bond (.withdraw c k) m) ⟨h.inv, h.young⟩ trivial
    refine ⟨⟨hbase.1, hbase.2, Ledger.within_same w1 e1 e2, ?_⟩, fun _ => ⟨e6.trans (f1.trans hcl), ?_⟩, ?_⟩
    · rw [e1, e3]
      rcases f2 with ⟨g1, g2⟩ | ⟨y, g1, g2⟩
      · rw [g1, g2]; exact h.payee
      · rw [g1, g2, FMap.get_erase, FMap.get_erase]
        by_cases hy : a = y
        · subst hy; left; simp
        · rw [if_neg hy, if_neg hy]; exact h.payee
    · refine e5.trans ?_
      rcases Ledger.step_era_eq cfg.world.ledger (led d) (.withdraw c true) with hh | hh
      · cases hh
      · exact hh.trans he
    · intro hx
      exact (congrArg (fun f => f.get a) e1).trans (w2 (by rw [hx]; exact Nat.zero_le _))

/-- Nothing of the account is locked for staking; what is still locked are votes and locks of other pallets. -/
structure Out (d : State) (a : AccId) : Prop where
  bonded : d.w.ledger.bonded.get a = none
  lock : d.w.ledger.locks.get a = none
  frozen : d.w.bank.frozen a = max (World.voteLock d.w a) (d.w.rest a)

theorem out_of {cfg : Cfg} {d : State} (h : Ledger.Inv cfg.world.ledger (led d)) (hs : World.settle d.w = d.w) (hb : d.w.ledger.bonded.get a = none) :
    Out d a := by
  have hl := h.noLock a hb
  refine ⟨hb, hl, ?_⟩
  rw [World.settled_frozen hs]
  have : Ledger.lockOf d.w.ledger a = 0 := by unfold Ledger.lockOf; rw [show d.w.ledger.locks.get a = none from hl]; rfl
  rw [this]
  omega

theorem settled_run (cfg : Cfg) (ops : List Op) : ∀ d : State, World.settle d.w = d.w → World.settle (run cfg d ops).w = (run cfg d ops).w := by
  induction ops with
  | nil => intro d h; exact h
  | cons op ops ih => intro d h; exact ih _ (settled_step cfg op h)

theorem base_start {cfg : Cfg} {d : State} (g : World.Start d.w) : Base cfg.world.ledger (led d) := by
  refine ⟨⟨?_, ?_, ?_, ?_, ?_⟩, ?_⟩
  · intro a c h; rw [show (led d).bonded = ∅ from g.noBond] at h; cases h
  · intro c l h; rw [show (led d).ledgers = ∅ from g.noLedger] at h; cases h
  · intro c l h; rw [show (led d).ledgers = ∅ from g.noLedger] at h; cases h
  · intro c l h; rw [show (led d).ledgers = ∅ from g.noLedger] at h; cases h
  · intro a _; rw [show (led d).locks = ∅ from g.noLock]; rfl
  · intro c l h; rw [show (led d).ledgers = ∅ from g.noLedger] at h; cases h

/-- C138, on the whole chain. After any history of the chain, who is bonded with fewer than the maximal number of chunks
directs the rewards to the stash, unbonds everything and, when the bonding duration has passed, withdraws; then nothing is
locked for staking any more. In between anything may happen, in all pallets: reports, slashes, rewards, elections, calls of
everybody else. -/
theorem C138_chain (cfg : Cfg) {c0 : State} (g : World.Start c0.w) (ops : List Op) (hk : ∀ op ∈ ops, KeepsStakes op)
    (a c : AccId) (l : Ledger.Ledger) (v : Balance) (m1 m2 m3 : Nat) (k : Bool) (wait : List Op) (now : Nat) :
    let d := run cfg c0 ops
    let d1 := run cfg d [.bond (.setPayee c .stash) m1, .bond (.unbond c v) m2]
    let d2 := run cfg d1 wait
    let d3 := step cfg d2 (.bond (.withdraw c k) m3)
    d.w.ledger.bonded.get a = some c → d.w.ledger.ledgers.get c = some l → l.active ≤ v →
    l.unlocking.length < cfg.world.ledger.maxChunks → d.w.ledger.closed = true →
    WaitsAll cfg a d1 wait → d2.w.ledger.closed = true → d2.w.ledger.era = some now →
    d.w.ledger.era.getD 0 + cfg.world.ledger.bondingDuration ≤ now →
    (∀ sp, d2.slash.spans.get a = some sp → sp.prior.length + 1 ≤ m3) → Out d3 a := by
  intro d d1 d2 d3 hb hl hv hn hc hw hc2 he2 hnow hm
  have hbase : Base cfg.world.ledger (led d) := base_run cfg ops c0 (base_start g) hk
  obtain ⟨g1, f1, f2⟩ := going_payee cfg hbase hb hl m1
  have g2 := going_unbond cfg g1 (f1.trans hc) hn (by rw [f2]) v hv m2
  have g3 := going_run cfg wait d1 g2 hw
  obtain ⟨g4, -, g5⟩ := going_withdraw cfg g3 hc2 he2 hnow k m3 hm
  exact out_of g4.inv (settled_run cfg [.bond (.withdraw c k) m3] d2
    (settled_run cfg wait d1 (settled_run cfg _ d (settled_run cfg ops c0 g.locks)))) (g5 rfl)

/-- C138, on the whole chain, with any number of chunks: direct the rewards to the stash, wait one bonding duration, withdraw,
unbond everything, wait another bonding duration, withdraw. -/
theorem C138_chain_full (cfg : Cfg) (hmax : 0 < cfg.world.ledger.maxChunks) {c0 : State} (g : World.Start c0.w) (ops : List Op)
    (hk : ∀ op ∈ ops, KeepsStakes op) (a c : AccId) (l : Ledger.Ledger) (v : Balance) (m1 m2 m3 m4 : Nat) (k k' : Bool)
    (wait wait' : List Op) (now now' : Nat) :
    let d := run cfg c0 ops
    let d1 := run cfg (step cfg d (.bond (.setPayee c .stash) m1)) wait
    let d2 := run cfg d1 [.bond (.withdraw c k) m2, .bond (.unbond c v) m3]
    let d3 := run cfg d2 wait'
    let d4 := step cfg d3 (.bond (.withdraw c k') m4)
    d.w.ledger.bonded.get a = some c → d.w.ledger.ledgers.get c = some l → l.active ≤ v →
    WaitsAll cfg a (step cfg d (.bond (.setPayee c .stash) m1)) wait → d1.w.ledger.closed = true → d1.w.ledger.era = some now →
    d.w.ledger.era.getD 0 + cfg.world.ledger.bondingDuration ≤ now →
    (∀ sp, d1.slash.spans.get a = some sp → sp.prior.length + 1 ≤ m2) →
    WaitsAll cfg a d2 wait' → d3.w.ledger.closed = true → d3.w.ledger.era = some now' → now + cfg.world.ledger.bondingDuration ≤ now' →
    (∀ sp, d3.slash.spans.get a = some sp → sp.prior.length + 1 ≤ m4) → Out d4 a := by
  intro d d1 d2 d3 d4 hb hl hv hw hc1 he1 hnow hm2 hw' hc3 he3 hnow' hm4
  have hbase : Base cfg.world.ledger (led d) := base_run cfg ops c0 (base_start g) hk
  obtain ⟨g1, -, -⟩ := going_payee cfg hbase hb hl m1
  have g2 := going_run cfg wait _ g1 hw
  obtain ⟨g3, f3, -⟩ := going_withdraw cfg g2 hc1 he1 hnow k m2 hm2
  have g4 : Going cfg.world.ledger a c 0 1 (now + cfg.world.ledger.bondingDuration) (led d2) := by
    by_cases hz : d1.w.ledger.bonded.get a = none
    · have hg : Going cfg.world.ledger a c 0 1 (now + cfg.world.ledger.bondingDuration) (led d1) := ⟨g2.inv, g2.young, .inl hz, .inl hz⟩
      have hnc : ∀ (e : State), e.w.ledger.bonded.get a = none → ¬ (led e).bonded.get a = some c := by
        intro e h1 h2
        rw [show (led e).bonded.get a = none from h1] at h2
        cases h2
      have hg1 := going_step cfg d1 (.bond (.withdraw c k) m2) hg (.inl (hnc d1 hz))
      obtain ⟨-, -, hz1⟩ := going_withdraw cfg (x := 0) (n := 1) (b := 0)
        (⟨g2.inv, g2.young, .inl hz, .inl hz⟩ : Going cfg.world.ledger a c 0 1 0 (led d1)) hc1 he1 (Nat.zero_le _) k m2 hm2
      exact going_step cfg _ (.bond (.unbond c v) m3) hg1 (.inl (hnc _ (hz1 rfl)))
    · obtain ⟨f4, f5⟩ := f3 hz
      have g3' : Going cfg.world.ledger a c l.active 0 (now + cfg.world.ledger.bondingDuration) (led (step cfg d1 (.bond (.withdraw c k) m2))) := by
        refine ⟨g3.inv, g3.young, ?_, g3.payee⟩
        rcases g3.within with h | ⟨h1, l', h2, h3, h4, h5, h6⟩
        · exact Or.inl h
        · exact Or.inr ⟨h1, l', h2, h3, h4, h5, h6.mono (Nat.zero_le _)⟩
      exact going_unbond cfg g3' f4 hmax (by rw [f5]; exact Nat.le_refl _) v hv m3
  have g5 := going_run cfg wait' d2 g4 hw'
  obtain ⟨g6, -, g7⟩ := going_withdraw cfg g5 hc3 he3 hnow' k' m4 hm4
  exact out_of g6.inv (settled_run cfg [.bond (.withdraw c k') m4] d3 (settled_run cfg wait' d2 (settled_run cfg _ d1
    (settled_run cfg wait _ (settled_run cfg [_] d (settled_run cfg ops c0 g.locks)))))) (g7 rfl)

/-- Bonds can be withdrawn after two eras. -/
def exShort : Cfg := { exCfg with world := { exCfg.world with ledger := { exCfg.world.ledger with bondingDuration := 2 } } }

/-- While validator 1 leaves: it is reported again, paid for an era in which it was elected, an account stakes for credit, somebody
else unbonds, a channel is opened, and two eras pass. -/
def exWait : List Op :=
  [.slash (.offence 18 19 1 200000000 [5]), .dele (.addPoints 2 1 20), .dele (.endEra 2), .bond (.unbond 12 100) 0, .world (.micro (.openChannel 2 3 100 10)),
   .slash (.startEra 24), .dele (.newEra [2]), .credit (.burnForCredit 3 5), .slash (.startEra 30), .dele (.newEra [2])]

theorem exOps_keeps : ∀ op ∈ exOps, KeepsStakes op := by
  intro op h
  simp only [exOps, List.mem_append, List.mem_cons, List.mem_replicate, List.not_mem_nil, or_false] at h
  rcases h with (h | h) | h
  · rcases h with rfl | rfl | rfl | rfl | rfl | rfl | rfl | rfl | rfl | rfl | rfl | rfl | rfl <;> trivial
  · rw [h.2]; trivial
  · rcases h with rfl | rfl | rfl | rfl | rfl | rfl | rfl | rfl | rfl | rfl <;> trivial

theorem exWait_waits {d : State} (h : (run exShort d (exWait.take 3)).w.ledger.bonded.get 1 ≠ some 12) : WaitsAll exShort 1 d exWait :=
  ⟨trivial, trivial, trivial, .inl h, trivial, trivial, trivial, trivial, trivial, trivial, trivial⟩

/-- The validator of the example was slashed twice, the second time while leaving; it gets out what is left. -/
example :
    let d := run exShort exStart exOps
    let d1 := run exShort d [.bond (.setPayee 11 .stash) 0, .bond (.unbond 11 475) 0]
    let d2 := run exShort d1 exWait
    let d3 := step exShort d2 (.bond (.withdraw 11 true) 3)
    Out d3 1 ∧ d2.w.ledger.ledgers.get 11 = some ⟨1, 375, 0, [⟨375, 4⟩]⟩ ∧ d2.w.bank.frozen 1 = 375 ∧ d3.w.bank.frozen 1 = 0 := by
  refine ⟨C138_chain exShort World.exWorld_start exOps exOps_keeps 1 11 ⟨1, 475, 475, []⟩ 475 0 0 3 true exWait 4 (by decide +kernel) (by decide +kernel)
    (by decide) (by decide) (by decide +kernel) (exWait_waits (by decide +kernel)) (by decide +kernel) (by decide +kernel) (by decide +kernel) ?_,
    by decide +kernel, by decide +kernel, by decide +kernel⟩
  intro sp h
  have : ((run exShort (run exShort (run exShort exStart exOps) [.bond (.setPayee 11 .stash) 0, .bond (.unbond 11 475) 0]) exWait).slash.spans.get 1).map
      (fun sp => sp.prior.length) = some 2 := by decide +kernel
  rw [h] at this
  have h2 : sp.prior.length = 2 := Option.some.inj this
  omega

/-- Two more eras. -/
def exWait' : List Op := [.slash (.startEra 36), .dele (.newEra [2]), .slash (.startEra 42), .dele (.newEra [2])]

theorem exWait'_waits (d : State) : WaitsAll exShort 1 d exWait' := ⟨trivial, trivial, trivial, trivial, trivial⟩

/-- The same after part has been unbonded before, in the longer way. -/
example :
    let d := run exShort exStart (exOps ++ [.bond (.unbond 11 100) 0])
    let d1 := run exShort (step exShort d (.bond (.setPayee 11 .stash) 0)) exWait
    let d2 := run exShort d1 [.bond (.withdraw 11 true) 3, .bond (.unbond 11 500) 0]
    let d3 := run exShort d2 exWait'
    let d4 := step exShort d3 (.bond (.withdraw 11 true) 3)
    Out d4 1 ∧ d.w.ledger.ledgers.get 11 = some ⟨1, 475, 375, [⟨100, 4⟩]⟩ ∧ d3.w.bank.frozen 1 ≠ 0 ∧ d4.w.bank.frozen 1 = 0 := by
  intro d d1 d2 d3 d4
  have hk : ∀ op ∈ exOps ++ [.bond (.unbond 11 100) 0], KeepsStakes op := by
    intro op h
    rcases List.mem_append.1 h with h | h
    · exact exOps_keeps op h
    · rw [List.mem_singleton.1 h]; trivial
  have hs : ∀ (o : Option Slashing.Spans), o.all (fun sp => decide (sp.prior.length ≤ 2)) = true → ∀ sp, o = some sp → sp.prior.length + 1 ≤ 3 := by
    intro o h sp e
    rw [e] at h
    have := of_decide_eq_true (show decide (sp.prior.length ≤ 2) = true from h)
    omega
  have key := C138_chain_full exShort (by decide) (c0 := exStart) World.exWorld_start (exOps ++ [.bond (.unbond 11 100) 0]) hk 1 11 ⟨1, 475, 375, [⟨100, 4⟩]⟩ 500 0 3 0 3 true true
    exWait exWait' 4 6
  have out := key (by decide +kernel) (by decide +kernel) (by decide) (exWait_waits (by decide +kernel)) (by decide +kernel) (by decide +kernel) (by decide +kernel)
    (hs _ (by decide +kernel)) (exWait'_waits _) (by decide +kernel) (by decide +kernel) (by decide +kernel) (hs _ (by decide +kernel))
  exact ⟨out, by decide +kernel, by decide +kernel, by decide +kernel⟩

end Verif.Chain
