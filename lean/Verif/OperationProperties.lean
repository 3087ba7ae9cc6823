import Verif.OperationProofs

/-
Properties C26, C27, C28, C29, C63: release of staked balance, bridge, burning.
-/

namespace Verif.Operation

open Verif.UserPrivileges (Privilege)

/-! ### Specifications -/

/-- The latest release schedule agreed for an account and what has been released under it. -/
structure Track where
  days : Nat
  total : Balance
  start : Nat
  paid : Balance
  lastDay : Nat
deriving DecidableEq, Repr

/-- Start day of a schedule given in milliseconds (32-bit day number). -/
def startDay (moment : Nat) : Nat := (moment / 86400000) % 2 ^ 32

/-- Bookkeeping of the releases of one block. -/
def payTrack (a : AccId) (today : Nat) (t : Option Track) (r : Release) : Option Track :=
  if r.acc = a then t.map fun t => { t with paid := t.paid + r.amount, lastDay := today } else t

/-- Bookkeeping of one call. -/
def trackStep (a : AccId) (t : Option Track) : State × Op × Out → Option Track
  | (_, .unstakingRelease _ b days moment total, .done) =>
    if b = a then some ⟨days, total, startDay moment, 0, startDay moment⟩ else t
  | (s, .finalize, .released l) => l.foldl (payTrack a s.today) t
  | _ => t

/-- The latest schedule of `a` with what was released under it, read off the history. -/
def track (a : AccId) (tr : List (State × Op × Out)) : Option Track := tr.foldl (trackStep a) none

/-- Sum of the amounts of a list of releases. -/
def amountOf (l : List Release) : Balance := (l.map Release.amount).sum

/-- Everything released on day `d`. -/
def releasedOn (d : Nat) : List (State × Op × Out) → Balance
  | [] => 0
  | (s, .finalize, .released l) :: tr => (if s.today = d then amountOf l else 0) + releasedOn d tr
  | _ :: tr => releasedOn d tr

/-! ### Frame -/

/-- The storage concerning releases is the same. -/
structure Same (s s' : State) : Prop where
  infos : s'.infos = s.infos
  daily : s'.daily = s.daily
  now : s'.now = s.now
  savedDay : s'.savedDay = s.savedDay
  dayEnd : s'.dayEnd = s.dayEnd
  singleMax : s'.singleMax = s.singleMax
  dailyMax : s'.dailyMax = s.dailyMax

theorem Same.refl (s : State) : Same s s := ⟨rfl, rfl, rfl, rfl, rfl, rfl, rfl⟩

/-- Calls and what they may change. -/
theorem step_shape (cfg : Cfg) (s : State) (op : Op) :
    Same s (step cfg s op).1 ∨
    (op = .finalize ∧ step cfg s op = ((finalize cfg s).1, .released (finalize cfg s).2)) ∨
    (∃ x a d m t, op = .unstakingRelease x a d m t ∧ unstakingRelease s x a d m t = .ok (step cfg s op).1 ∧
      (step cfg s op).2 = .done) ∨
    (∃ x l, op = .removeInfos x l ∧ removeInfos s x l = .ok (step cfg s op).1) ∨
    (∃ x d, op = .setLimits true x d ∧ (step cfg s op).1 = { s with singleMax := x, dailyMax := d }) ∨
    (∃ dt b p k, op = .external dt b p k ∧
      (step cfg s op).1 = { s with now := s.now + dt, bank := b, priv := p, slashOk := k }) := by
  rcases step_cases cfg s op with ⟨r, hb, hs⟩ | ⟨e, hb, hs⟩
  swap
  · rw [hs]; exact Or.inl (Same.refl s)
  cases op with
  | forceRemoveLock r w f =>
    left
    rw [hs]
    simp only [body] at hb
    obtain ⟨s', hr, hs'⟩ := map_ok hb
    rw [← hs']
    unfold forceRemoveLock at hr
    split at hr
    · cases hr
    · cases hr; exact ⟨rfl, rfl, rfl, rfl, rfl, rfl, rfl⟩
  | forceReserve x w v =>
    left
    rw [hs]
    simp only [body] at hb
    obtain ⟨s', hr, hs'⟩ := map_ok hb
    rw [← hs']
    unfold forceReserve at hr
    split at hr
    · cases hr
    · obtain ⟨b, _, rfl⟩ := map_ok hr; exact ⟨rfl, rfl, rfl, rfl, rfl, rfl, rfl⟩
  | setLimits r x d =>
    simp only [body] at hb
    obtain ⟨s', hr, hs'⟩ := map_ok hb
    unfold setLimits at hr
    cases r with
    | false => cases hr
    | true =>
      cases hr
      right; right; right; right; left
      exact ⟨x, d, rfl, by rw [hs, ← hs']⟩
  | unstakingRelease x a d m t =>
    right; right; left
    simp only [body] at hb
    obtain ⟨s', hr, hs'⟩ := map_ok hb
    exact ⟨x, a, d, m, t, rfl, by rw [hs, ← hs']; exact hr, by rw [hs, ← hs']⟩
  | removeInfos x l =>
    right; right; right; left
    simp only [body] at hb
    obtain ⟨s', hr, hs'⟩ := map_ok hb
    exact ⟨x, l, rfl, by rw [hs, ← hs']; exact hr⟩
  | burnForEzc x v =>
    left
    rw [hs]
    simp only [body] at hb
    obtain ⟨s', hr, hs'⟩ := map_ok hb
    rw [← hs']
    unfold burnForEzc at hr
    split at hr
    · cases hr
    · obtain ⟨b, _, rfl⟩ := map_ok hr; exact ⟨rfl, rfl, rfl, rfl, rfl, rfl, rfl⟩
  | setFund w f =>
    left
    rw [hs]
    simp only [body] at hb
    obtain ⟨s', hr, hs'⟩ := map_ok hb
    rw [← hs']
    unfold setFund at hr
    split at hr
    · cases hr
    · cases hr; exact ⟨rfl, rfl, rfl, rfl, rfl, rfl, rfl⟩
  | bridgeOut w x v c =>
    left
    rw [hs]
    simp only [body] at hb
    obtain ⟨s', hr, hs'⟩ := map_ok hb
    rw [← hs']
    unfold bridgeOut at hr
    split at hr
    · cases hr
    split at hr
    · cases hr
    · obtain ⟨b, _, rfl⟩ := map_ok hr; exact ⟨rfl, rfl, rfl, rfl, rfl, rfl, rfl⟩
  | bridgeIn w x v c =>
    left
    rw [hs]
    simp only [body] at hb
    obtain ⟨s', hr, hs'⟩ := map_ok hb
    rw [← hs']
    unfold bridgeIn at hr
    split at hr
    · cases hr
    split at hr
    · cases hr
    · obtain ⟨b, _, rfl⟩ := map_ok hr; exact ⟨rfl, rfl, rfl, rfl, rfl, rfl, rfl⟩
  | applyBridge w v c =>
    left
    rw [hs]
    simp only [body] at hb
    cases hb
    exact Same.refl s
  | unlockAssets r x d v f =>
    left
    rw [hs]
    simp only [body] at hb
    obtain ⟨s', hr, hs'⟩ := map_ok hb
    rw [← hs']
    unfold unlockAssets at hr
    split at hr
    · cases hr
    · obtain ⟨b, _, rfl⟩ := map_ok hr; exact ⟨rfl, rfl, rfl, rfl, rfl, rfl, rfl⟩
  | finalize =>
    right; left
    exact ⟨rfl, rfl⟩
  | external dt b p k =>
    right; right; right; right; right
    exact ⟨dt, b, p, k, rfl, rfl⟩

theorem unstakingRelease_ok {s s' : State} {x a : AccId} {d m : Nat} {t : Balance}
    (h : unstakingRelease s x a d m t = .ok s') :
    s.priv x .releaseSetter = true ∧ 0 < d ∧ 0 < t ∧ t / d ≤ s.singleMax ∧ s.slashOk a = true ∧
    s' = { s with infos := s.infos.insert a ⟨d, t, startDay m, startDay m, t / d⟩ } := by
  unfold unstakingRelease at h
  split at h
  · cases h
  rename_i h1
  split at h
  · cases h
  rename_i h2
  split at h
  · cases h
  rename_i h3
  simp only at h
  split at h
  · cases h
  rename_i h4
  split at h
  · cases h
  rename_i h5
  cases h
  exact ⟨by simpa using h1, by omega, Nat.pos_of_ne_zero h3, by omega, by simpa using h5, rfl⟩

theorem removeInfos_ok {s s' : State} {x : AccId} {l : List AccId} (h : removeInfos s x l = .ok s') :
    s' = { s with infos := l.foldl (fun m a => m.erase a) s.infos } := by
  unfold removeInfos at h
  split at h
  · cases h
  · cases h; rfl

/-! ### C26 -/

/-- Storage and bookkeeping agree. -/
structure TInv (s : State) (a : AccId) (t : Option Track) : Prop where
  stored : ∀ i, s.infos.get a = some i → ∃ t', t = some t' ∧ t'.days = i.days ∧ t'.total = i.total ∧
    t'.start = i.startDay ∧ t'.total / t'.days = i.perDay ∧ t'.lastDay = i.lastDay ∧
    i.lastDay - i.startDay < i.days
  paid : ∀ t', t = some t' → 0 < t'.days ∧ t'.paid = t'.total / t'.days * (t'.lastDay - t'.start) ∧
    t'.start ≤ t'.lastDay ∧ (t'.lastDay = t'.start ∨ t'.lastDay ≤ s.today)

theorem foldl_payTrack_absent (a : AccId) (day : Nat) (l : List Release) : ∀ (t : Option Track),
    (∀ r ∈ l, r.acc ≠ a) → l.foldl (payTrack a day) t = t := by
  induction l with
  | nil => intro t _; rfl
  | cons r rs ih =>
    intro t h
    rw [List.foldl_cons]
    have : payTrack a day t r = t := by
      unfold payTrack; rw [if_neg (h r (by simp))]
    rw [this]
    exact ih t fun r hr => h r (List.mem_cons_of_mem _ hr)

/-- If exactly one release concerns `a`, the bookkeeping adds its amount. -/
theorem foldl_payTrack_one (a : AccId) (day : Nat) (l : List Release) (hn : (l.map Release.acc).Nodup)
    (v : Balance) : ∀ (t : Option Track), (a, v) ∈ l.map (fun r => (r.acc, r.amount)) →
    l.foldl (payTrack a day) t = t.map fun t => { t with paid := t.paid + v, lastDay := day } := by
  induction l with
  | nil => intro t h; simp at h
  | cons r rs ih =>
    intro t h
    rw [List.map_cons, List.nodup_cons] at hn
    rw [List.foldl_cons]
    rw [List.map_cons, List.mem_cons] at h
    rcases h with h | h
    · simp only [Prod.mk.injEq] at h
      obtain ⟨rfl, rfl⟩ := h
      rw [foldl_payTrack_absent]
      · unfold payTrack; rw [if_pos rfl]
      · intro r' hr' heq
        exact hn.1 (heq ▸ List.mem_map.2 ⟨r', hr', rfl⟩)
    · have hne : r.acc ≠ a := by
        intro heq
        obtain ⟨r', hr', he⟩ := List.mem_map.1 h
        simp only [Prod.mk.injEq] at he
        exact hn.1 (heq ▸ List.mem_map.2 ⟨r', hr', he.1⟩)
      have : payTrack a day t r = t := by unfold payTrack; rw [if_neg hne]
      rw [this]
      exact ih hn.2 t h

theorem Released.accs {s s' : State} {rel : List Release} {l : List (AccId × Info)}
    (h : Released s s' rel l) : rel.map Release.acc = l.map Prod.fst := by
  have := congrArg (List.map Prod.fst) h.amounts
  simpa [due, Function.comp_def] using this

theorem trackStep_other {a : AccId} {t : Option Track} {e : State × Op × Out}
    (h1 : e.2.1 ≠ .finalize) (h2 : ∀ x b d m t, e.2.1 ≠ .unstakingRelease x b d m t) :
    trackStep a t e = t := by
  obtain ⟨s, op, o⟩ := e
  cases op <;> first | rfl | exact absurd rfl h1 | exact absurd rfl (h2 _ _ _ _ _)

theorem finalize_tinv (cfg : Cfg) {s : State} {a : AccId} {t : Option Track} (h : TInv s a t) :
    TInv (finalize cfg s).1 a ((finalize cfg s).2.foldl (payTrack a s.today) t) := by
  by_cases hd : s.savedDay < s.today
  · rw [finalize_rollover cfg s hd]
    exact ⟨h.stored, h.paid⟩
  · obtain ⟨l, hl⟩ := finalize_released cfg s hd
    have hnow : (finalize cfg s).1.today = s.today := by unfold State.today; rw [hl.same.1]
    by_cases ha : a ∈ l.map Prod.fst
    · obtain ⟨⟨b, i⟩, hi, hb⟩ := List.mem_map.1 ha
      rw [show b = a from hb] at hi
      have hst := hl.mem a i hi
      obtain ⟨t', rfl, e1, e2, e3, e4, e5, e6⟩ := h.stored i hst
      obtain ⟨p0, p1, p2, p3⟩ := h.paid t' rfl
      rw [foldl_payTrack_one a s.today _ (by rw [hl.accs]; exact hl.nodup) (accrued s.today i)]
      swap
      · rw [hl.amounts]; exact List.mem_map.2 ⟨(a, i), hi, rfl⟩
      have hpos := (hl.pos _ hi).1
      have hlt : i.lastDay < s.today := by
        by_contra hc
        have : s.today - i.lastDay = 0 := by omega
        simp only [accrued, this, Nat.mul_zero] at hpos
        omega
      refine ⟨?_, ?_⟩
      · intro j hj
        rw [hl.infosIn a i hi] at hj
        split at hj
        · cases hj
        · rename_i hdays
          cases hj
          exact ⟨_, rfl, e1, e2, e3, e4, rfl, by simp only; omega⟩
      · intro t'' ht
        simp only [Option.map_some, Option.some.injEq] at ht
        subst ht
        refine ⟨p0, ?_, by simp only; omega, Or.inr (Nat.le_of_eq hnow.symm)⟩
        simp only
        rw [p1, accrued, ← e4, ← Nat.mul_add]
        congr 1
        omega
    · rw [foldl_payTrack_absent]
      · refine ⟨?_, ?_⟩
        · intro i hi
          rw [hl.infosOut a ha] at hi
          exact h.stored i hi
        · rw [hnow]; exact h.paid
      · intro r hr heq
        apply ha
        rw [← hl.accs, ← heq]
        exact List.mem_map.2 ⟨r, hr, rfl⟩

theorem step_tinv (cfg : Cfg) {s : State} {a : AccId} {t : Option Track} (h : TInv s a t) (op : Op) :
    TInv (step cfg s op).1 a (trackStep a t (s, op, (step cfg s op).2)) := by
  by_cases hfin : op = .finalize
  · subst hfin
    exact finalize_tinv cfg h
  by_cases hun : ∃ x b d m t, op = .unstakingRelease x b d m t
  · obtain ⟨x, b, d, m, tt, rfl⟩ := hun
    rcases step_cases cfg s (.unstakingRelease x b d m tt) with ⟨r, hb, hs⟩ | ⟨e, hb, hs⟩
    swap
    · rw [hs]; exact h
    simp only [body] at hb
    obtain ⟨s', hr, hs'⟩ := map_ok hb
    obtain ⟨_, h2, h3, h4, _, rfl⟩ := unstakingRelease_ok hr
    rw [hs, ← hs']
    simp only [trackStep]
    by_cases hba : b = a
    · subst hba
      rw [if_pos rfl]
      refine ⟨?_, ?_⟩
      · intro i hi
        simp only [FMap.get_insert_self, Option.some.injEq] at hi
        subst hi
        exact ⟨_, rfl, rfl, rfl, rfl, rfl, rfl, by simp only; omega⟩
      · intro t' ht
        simp only [Option.some.injEq] at ht
        subst ht
        exact ⟨h2, by simp, Nat.le_refl _, Or.inl rfl⟩
    · rw [if_neg hba]
      refine ⟨?_, h.paid⟩
      intro i hi
      simp only [FMap.get_insert_ne _ _ (Ne.symm hba)] at hi
      exact h.stored i hi
  rw [trackStep_other hfin (fun x b d m t e => hun ⟨x, b, d, m, t, e⟩)]
  rcases step_shape cfg s op with hsm | ⟨e, _⟩ | ⟨x, b, d, m, t, e, _⟩ | ⟨x, l, e, hr⟩ | ⟨x, d, e, hs⟩ | ⟨dt, b, p, k, e, hs⟩
  · refine ⟨?_, ?_⟩
    · rw [hsm.infos]; exact h.stored
    · intro t' ht
      have : (step cfg s op).1.today = s.today := by unfold State.today; rw [hsm.now]
      rw [this]; exact h.paid t' ht
  · exact absurd e hfin
  · exact absurd ⟨x, b, d, m, t, e⟩ hun
  · rw [removeInfos_ok hr]
    refine ⟨?_, h.paid⟩
    intro i hi
    simp only [foldl_erase_get] at hi
    split at hi
    · cases hi
    · exact h.stored i hi
  · rw [hs]; exact ⟨h.stored, h.paid⟩
  · rw [hs]
    refine ⟨h.stored, ?_⟩
    intro t' ht
    obtain ⟨p0, p1, p2, p3⟩ := h.paid t' ht
    refine ⟨p0, p1, p2, ?_⟩
    rcases p3 with p3 | p3
    · exact Or.inl p3
    · right
      refine Nat.le_trans p3 ?_
      unfold State.today
      exact Nat.div_le_div_right (by simp only; omega)

theorem run_tinv (cfg : Cfg) (a : AccId) (ops : List Op) : ∀ (s : State) (t : Option Track), TInv s a t →
    TInv (run cfg s ops).1 a ((run cfg s ops).2.foldl (trackStep a) t) := by
  induction ops with
  | nil => intro s t h; exact h
  | cons op ops ih => intro s t h; exact ih _ _ (step_tinv cfg h op)

theorem genesis_tinv (bank : Bank) (dailyMax singleMax : Balance) (a : AccId) :
    TInv (genesis bank dailyMax singleMax) a none :=
  ⟨fun i hi => by simp [genesis] at hi, fun t' ht => by cases ht⟩

/-- C26, what holds: what has been released under the latest schedule of an account is the daily
share times the number of days from the start to the last release. So it never exceeds the daily
share for each day passed, and not the agreed total as long as the last release is at most the
agreed number of days after the start. -/
theorem C26_released_amount_partial (cfg : Cfg) (bank : Bank) (dailyMax singleMax : Balance)
    (ops : List Op) (a : AccId) (t : Track)
    (ht : track a (run cfg (genesis bank dailyMax singleMax) ops).2 = some t) :
    let s := (run cfg (genesis bank dailyMax singleMax) ops).1
    t.paid = t.total / t.days * (t.lastDay - t.start) ∧
    t.paid ≤ t.total / t.days * (s.today - t.start) ∧
    (t.lastDay ≤ t.start + t.days → t.paid ≤ t.total) := by
  have h := run_tinv cfg a ops _ _ (genesis_tinv bank dailyMax singleMax a)
  obtain ⟨p0, p1, p2, p3⟩ := h.paid t ht
  refine ⟨p1, ?_, ?_⟩
  · rw [p1]
    apply Nat.mul_le_mul_left
    rcases p3 with p3 | p3
    · omega
    · omega
  · intro hle
    rw [p1]
    calc t.total / t.days * (t.lastDay - t.start) ≤ t.total / t.days * t.days :=
          Nat.mul_le_mul_left _ (by omega)
      _ ≤ t.total := Nat.div_mul_le_self _ _

/-- C26: once a release happens the agreed number of days after the start or later, the schedule is
gone: nothing more is released to the account until a new schedule is agreed. -/
theorem C26_no_release_after_end (cfg : Cfg) (bank : Bank) (dailyMax singleMax : Balance)
    (ops : List Op) (a : AccId) (t : Track)
    (ht : track a (run cfg (genesis bank dailyMax singleMax) ops).2 = some t)
    (hend : t.start + t.days ≤ t.lastDay) :
    let s := (run cfg (genesis bank dailyMax singleMax) ops).1
    ∀ r ∈ (finalize cfg s).2, r.acc ≠ a := by
  intro s r hr heq
  have h := run_tinv cfg a ops _ _ (genesis_tinv bank dailyMax singleMax a)
  by_cases hd : s.savedDay < s.today
  · rw [finalize_rollover cfg s hd] at hr; cases hr
  · obtain ⟨l, hl⟩ := finalize_released cfg s hd
    have : a ∈ l.map Prod.fst := by
      rw [← hl.accs, ← heq]; exact List.mem_map.2 ⟨r, hr, rfl⟩
    obtain ⟨⟨b, i⟩, hi, hb⟩ := List.mem_map.1 this
    rw [show b = a from hb] at hi
    obtain ⟨t', ht', e1, e2, e3, e4, e5, e6⟩ := h.stored i (hl.mem a i hi)
    have : t' = t := by
      have := ht'.symm.trans ht
      simpa using this
    subst this
    omega

/-- C26: an account for which no schedule was ever agreed receives nothing. -/
theorem C26_no_release_without_schedule (cfg : Cfg) (bank : Bank) (dailyMax singleMax : Balance)
    (ops : List Op) (a : AccId)
    (ht : track a (run cfg (genesis bank dailyMax singleMax) ops).2 = none) :
    ∀ r ∈ (finalize cfg (run cfg (genesis bank dailyMax singleMax) ops).1).2, r.acc ≠ a := by
  intro r hr heq
  have h := run_tinv cfg a ops _ _ (genesis_tinv bank dailyMax singleMax a)
  generalize (run cfg (genesis bank dailyMax singleMax) ops).1 = s at *
  by_cases hd : s.savedDay < s.today
  · rw [finalize_rollover cfg s hd] at hr; cases hr
  · obtain ⟨l, hl⟩ := finalize_released cfg s hd
    have : a ∈ l.map Prod.fst := by
      rw [← hl.accs, ← heq]; exact List.mem_map.2 ⟨r, hr, rfl⟩
    obtain ⟨⟨b, i⟩, hi, hb⟩ := List.mem_map.1 this
    rw [show b = a from hb] at hi
    obtain ⟨t', ht', _⟩ := h.stored i (hl.mem a i hi)
    have := ht'.symm.trans ht
    cases this

/-- C26: the releases of one block concern different accounts; each is credited with exactly the
released amount (if its account exists or the amount is at least the existential deposit, otherwise
nothing is minted), and no other balance changes. -/
theorem C26_release_credits (cfg : Cfg) (s : State) (hb : s.bank.Inv) :
    let s' := (finalize cfg s).1
    let l := (finalize cfg s).2
    (l.map Release.acc).Nodup ∧
    (∀ r ∈ l, r.minted = (if s.bank.accts.contains r.acc = true ∨ s.bank.ed ≤ r.amount then r.amount else 0) ∧
      s'.bank.free r.acc = s.bank.free r.acc + r.minted ∧
      s'.bank.reserved r.acc = s.bank.reserved r.acc) ∧
    (∀ x, (∀ r ∈ l, r.acc ≠ x) → s'.bank.acct x = s.bank.acct x) := by
  intro s' l
  by_cases hd : s.savedDay < s.today
  · have e : finalize cfg s = _ := finalize_rollover cfg s hd
    have hl : l = [] := by show (finalize cfg s).2 = []; rw [e]
    have hs : s'.bank = s.bank := by show (finalize cfg s).1.bank = _; rw [e]
    rw [hl]
    exact ⟨by simp, by simp, fun x _ => by rw [hs]⟩
  · obtain ⟨k, hk⟩ := finalize_released cfg s hd
    obtain ⟨_, h1, h2, h3⟩ := hk.bank hb
    refine ⟨by rw [show l.map Release.acc = _ from hk.accs]; exact hk.nodup, ?_, ?_⟩
    · intro r hr
      have hr' : r ∈ (finalize cfg s).2 := hr
      rw [h3] at hr'
      obtain ⟨⟨a, i⟩, hi, rfl⟩ := List.mem_map.1 hr'
      obtain ⟨h4, h5⟩ := h2 a i hi
      exact ⟨rfl, h4, h5⟩
    · intro x hx
      apply h1
      intro hm
      rw [← hk.accs] at hm
      obtain ⟨r, hr, he⟩ := List.mem_map.1 hm
      exact hx r hr he

def exCfg : Cfg := ⟨50, 99, fun a => a + 1⟩

def exBank : Bank :=
  { ed := 1, accts := ((∅ : FMap AccId Acct).insert 1 ⟨1000, 0⟩).insert 2 ⟨1000, 0⟩
    frozen := fun _ => 0, pinned := fun _ => false, issuance := 2000 }

def allPriv : AccId → Privilege → Bool := fun _ _ => true

/-- One day passes. -/
def nextDay (b : Bank) : Op := .external 86400000 b allPriv (fun _ => true)

/-- A schedule of 90 over 3 days: 30 on each of the three days. -/
example :
    let ops := [nextDay exBank, .finalize, .unstakingRelease 7 1 3 86400000 90, nextDay exBank, .finalize,
      .finalize, .finalize, nextDay exBank, .finalize, .finalize]
    let r := run exCfg (genesis exBank 1000 100) ops
    track 1 r.2 = some ⟨3, 90, 1, 60, 3⟩ ∧ r.1.bank.free 1 = 1030 ∧
    (r.2.map fun e => match e.2.2 with | .released l => l.map Release.amount | _ => []) =
      [[], [], [], [], [], [30], [], [], [], [30]] := by
  decide +kernel

/-- C26 fails (too much): a schedule of 90 over 3 days that starts in the past, or whose releases are
delayed, pays more than the agreed total. -/
theorem C26_overpaid :
    ∃ (ops : List Op) (a : AccId) (t : Track),
      track a (run exCfg (genesis exBank 1000 200) ops).2 = some t ∧ t.total < t.paid := by
  refine ⟨[nextDay exBank, .finalize, .unstakingRelease 7 1 3 86400000 90, nextDay exBank, nextDay exBank,
    nextDay exBank, nextDay exBank, .finalize, .finalize], 1, ⟨3, 90, 1, 120, 5⟩, ?_⟩
  decide +kernel

/-- C26 fails (too little): the remainder of the division into days is never paid. A schedule of 100
over 3 days ends after 99. -/
theorem C26_remainder_lost :
    ∃ (ops : List Op) (a : AccId) (t : Track),
      let s := (run exCfg (genesis exBank 1000 200) ops).1
      track a (run exCfg (genesis exBank 1000 200) ops).2 = some t ∧ t.paid < t.total ∧
      t.lastDay = t.start + t.days ∧ s.infos.get a = none := by
  refine ⟨[nextDay exBank, .finalize, .unstakingRelease 7 1 3 86400000 100, nextDay exBank, nextDay exBank,
    nextDay exBank, .finalize, .finalize], 1, ⟨3, 100, 1, 99, 4⟩, ?_⟩
  decide +kernel

/-! ### C27 -/

/-- Invariant for the daily limit. -/
structure DInv (s : State) (tr : List (State × Op × Out)) (dailyMax singleMax : Balance) : Prop where
  lim : s.dailyMax = dailyMax ∧ s.singleMax = singleMax
  day : s.savedDay ≤ s.today
  sum : ∀ d, (s.daily.get d).getD 0 = releasedOn d tr
  bound : ∀ d, (s.daily.get d).getD 0 ≤ dailyMax + singleMax
  open_ : s.dayEnd = false → (s.daily.get s.savedDay).getD 0 < dailyMax ∨ (s.daily.get s.savedDay).getD 0 = 0
  future : ∀ d, s.savedDay < d → (s.daily.get d).getD 0 = 0

theorem releasedOn_append (d : Nat) (tr tr' : List (State × Op × Out)) :
    releasedOn d (tr ++ tr') = releasedOn d tr + releasedOn d tr' := by
  induction tr with
  | nil => simp [releasedOn]
  | cons e es ih =>
    obtain ⟨s, op, o⟩ := e
    cases op <;> cases o <;> simp only [List.cons_append, releasedOn, ih] <;> omega

theorem releasedOn_skip {op : Op} (h : op ≠ .finalize) (d : Nat) (s : State) (o : Out) :
    releasedOn d [(s, op, o)] = 0 := by
  cases op <;> first | rfl | exact absurd rfl h

theorem today_mono (s : State) (dt : Nat) : s.today ≤ (s.now + dt) / msPerDay :=
  Nat.div_le_div_right (by omega)

theorem step_dinv (cfg : Cfg) {s : State} {tr : List (State × Op × Out)} {dm sm : Balance}
    (h : DInv s tr dm sm) (op : Op) (hl : ∀ x d, op ≠ .setLimits true x d) :
    DInv (step cfg s op).1 (tr ++ [(s, op, (step cfg s op).2)]) dm sm := by
  by_cases hfin : op = .finalize
  · subst hfin
    have hst : step cfg s .finalize = ((finalize cfg s).1, .released (finalize cfg s).2) := rfl
    rw [hst]
    have hro : ∀ d, releasedOn d (tr ++ [(s, .finalize, .released (finalize cfg s).2)]) =
        releasedOn d tr + (if s.today = d then amountOf (finalize cfg s).2 else 0) := by
      intro d; rw [releasedOn_append]; simp [releasedOn]
    by_cases hd : s.savedDay < s.today
    · rw [finalize_rollover cfg s hd] at *
      refine ⟨h.lim, Nat.le_refl _, ?_, h.bound, ?_, ?_⟩
      · intro d; rw [hro]; simp [amountOf, h.sum]
      · intro _; exact Or.inr (h.future _ hd)
      · intro d hd'; exact h.future d (by simp only at hd'; omega)
    · have heq : s.savedDay = s.today := by have := h.day; omega
      obtain ⟨l, hk⟩ := finalize_released cfg s hd
      have hamt : amountOf (finalize cfg s).2 = ((due s.today l).map Prod.snd).sum := by
        rw [← hk.amounts]; simp [amountOf, Function.comp_def]
      have hnow : (finalize cfg s).1.today = s.today := by unfold State.today; rw [hk.same.1]
      have hsum : ∀ d, ((finalize cfg s).1.daily.get d).getD 0 =
          releasedOn d (tr ++ [(s, .finalize, .released (finalize cfg s).2)]) := by
        intro d
        rw [hro]
        by_cases hdd : d = s.today
        · subst hdd
          rw [if_pos rfl, hk.dailyIn, h.sum, hamt]
        · rw [if_neg (Ne.symm hdd), hk.dailyOut d hdd, h.sum]; omega
      by_cases he : s.dayEnd = true
      · have e := finalize_dayEnd cfg s hd he
        rw [e] at hsum ⊢
        exact ⟨h.lim, h.day, hsum, h.bound, h.open_, h.future⟩
      · have he : s.dayEnd = false := by simpa using he
        have ho := h.open_ he
        rw [heq] at ho
        have := finalize_daily cfg s hd he (by rw [h.lim.1]; exact ho)
        rw [h.lim.1, h.lim.2] at this
        refine ⟨⟨by rw [hk.same.2.2.2]; exact h.lim.1, by rw [hk.same.2.2.1]; exact h.lim.2⟩, ?_, hsum, ?_, ?_, ?_⟩
        · rw [hk.same.2.1, hnow]; exact h.day
        · intro d
          by_cases hdd : d = s.today
          · subst hdd; exact this.1
          · rw [hk.dailyOut d hdd]; exact h.bound d
        · rw [hk.same.2.1, heq]; exact this.2
        · intro d hd'
          rw [hk.same.2.1] at hd'
          rw [hk.dailyOut d (by omega)]
          exact h.future d hd'
  have hro : ∀ d o, releasedOn d (tr ++ [(s, op, o)]) = releasedOn d tr := by
    intro d o; rw [releasedOn_append, releasedOn_skip hfin]; rfl
  rcases step_shape cfg s op with hsm | ⟨e, _⟩ | ⟨x, b, d, m, t, e, hr, _⟩ | ⟨x, l, e, hr⟩ | ⟨x, d, e, hs⟩ | ⟨dt, b, p, k, e, hs⟩
  · have hnow : (step cfg s op).1.today = s.today := by unfold State.today; rw [hsm.now]
    refine ⟨⟨by rw [hsm.dailyMax]; exact h.lim.1, by rw [hsm.singleMax]; exact h.lim.2⟩, ?_, ?_, ?_, ?_, ?_⟩
    · rw [hnow, hsm.savedDay]; exact h.day
    · intro d; rw [hro, hsm.daily]; exact h.sum d
    · rw [hsm.daily]; exact h.bound
    · rw [hsm.dayEnd, hsm.daily, hsm.savedDay]; exact h.open_
    · rw [hsm.daily, hsm.savedDay]; exact h.future
  · exact absurd e hfin
  · obtain ⟨_, _, _, _, _, he⟩ := unstakingRelease_ok hr
    rw [he]
    exact ⟨h.lim, h.day, fun d => by rw [hro]; exact h.sum d, h.bound, h.open_, h.future⟩
  · rw [removeInfos_ok hr]
    exact ⟨h.lim, h.day, fun d => by rw [hro]; exact h.sum d, h.bound, h.open_, h.future⟩
  · exact absurd e (hl x d)
  · rw [hs]
    exact ⟨h.lim, Nat.le_trans h.day (today_mono s dt), fun d => by rw [hro]; exact h.sum d, h.bound,
      h.open_, h.future⟩

theorem run_dinv (cfg : Cfg) {dm sm : Balance} (ops : List Op) : ∀ (s : State) (tr : List (State × Op × Out)),
    DInv s tr dm sm → (∀ x d, Op.setLimits true x d ∉ ops) →
    DInv (run cfg s ops).1 (tr ++ (run cfg s ops).2) dm sm := by
  induction ops with
  | nil => intro s tr h _; simpa [run] using h
  | cons op ops ih =>
    intro s tr h hl
    have := ih _ _ (step_dinv cfg h op (fun x d e => hl x d (by rw [e]; simp)))
      (fun x d hm => hl x d (List.mem_cons_of_mem _ hm))
    rw [List.append_assoc] at this
    exact this

/-- C27, what holds: while the limits stay as they are, what is released on a day is recorded exactly
and exceeds the daily maximum by at most one single release. -/
theorem C27_daily_limit_partial (cfg : Cfg) (bank : Bank) (dailyMax singleMax : Balance)
    (ops : List Op) (hl : ∀ x d, Op.setLimits true x d ∉ ops) (d : Nat) :
    let s := (run cfg (genesis bank dailyMax singleMax) ops).1
    let tr := (run cfg (genesis bank dailyMax singleMax) ops).2
    (s.daily.get d).getD 0 = releasedOn d tr ∧ releasedOn d tr ≤ dailyMax + singleMax := by
  have h0 : DInv (genesis bank dailyMax singleMax) [] dailyMax singleMax :=
    ⟨⟨rfl, rfl⟩, Nat.zero_le _, fun d => rfl, fun d => Nat.zero_le _, fun _ => Or.inr rfl, fun _ _ => rfl⟩
  have h := run_dinv cfg ops _ _ h0 hl
  exact ⟨h.sum d, by rw [← List.nil_append (run cfg (genesis bank dailyMax singleMax) ops).2, ← h.sum d]; exact h.bound d⟩

/-- C27: every single release is positive and at most the single maximum, and one block releases at
most twice the single maximum. -/
theorem C27_block_limit (cfg : Cfg) (s : State) :
    (∀ r ∈ (finalize cfg s).2, 0 < r.amount ∧ r.amount ≤ s.singleMax) ∧
    amountOf (finalize cfg s).2 ≤ 2 * s.singleMax := by
  by_cases hd : s.savedDay < s.today
  · rw [finalize_rollover cfg s hd]; simp [amountOf]
  · obtain ⟨l, hk⟩ := finalize_released cfg s hd
    refine ⟨?_, ?_⟩
    · intro r hr
      have : (r.acc, r.amount) ∈ due s.today l := by
        rw [← hk.amounts]; exact List.mem_map.2 ⟨r, hr, rfl⟩
      obtain ⟨e, he, heq⟩ := List.mem_map.1 this
      simp only [Prod.mk.injEq] at heq
      rw [← heq.2]
      exact hk.pos e he
    · have hamt : amountOf (finalize cfg s).2 = ((due s.today l).map Prod.snd).sum := by
        rw [← hk.amounts]; simp [amountOf, Function.comp_def]
      have h1 := hk.dailyIn
      by_cases he : s.dayEnd = true
      · rw [finalize_dayEnd cfg s hd he]; simp [amountOf]
      · have h2 : ((finalize cfg s).1.daily.get s.today).getD 0 ≤
            (s.daily.get s.today).getD 0 + 2 * s.singleMax := by
          unfold finalize
          rw [if_neg hd]
          unfold releaseStaking
          rw [if_neg he]
          simp only [FMap.get_insert_self, Option.getD_some]
          exact scan_block cfg s s.today _ _ (Or.inr rfl)
        omega

/-- C27 fails as stated: with a daily maximum of 100, two releases of 60 are paid on one day. -/
theorem C27_daily_limit_exceeded :
    ∃ (ops : List Op) (d : Nat), (∀ x y, Op.setLimits true x y ∉ ops) ∧
      100 < releasedOn d (run exCfg (genesis exBank 100 80) ops).2 := by
  refine ⟨[nextDay exBank, .finalize, .unstakingRelease 7 1 3 86400000 180,
    .unstakingRelease 7 2 3 86400000 180, nextDay exBank, .finalize, .finalize], 2, by simp [nextDay], ?_⟩
  decide +kernel

/-! ### C63 -/

/-- C63. If the amount due to an account has grown beyond the single maximum, nothing is ever
released to it again, however much time passes, unless the limits are changed or a new schedule is
agreed for the account. -/
theorem C63_overdue_release_stuck (cfg : Cfg) (s : State) (a : AccId) (i : Info)
    (hi : s.infos.get a = some i) (hover : s.singleMax < i.perDay * (s.today - i.lastDay))
    (ops : List Op) (h1 : ∀ x d, Op.setLimits true x d ∉ ops)
    (h2 : ∀ x d m t, Op.unstakingRelease x a d m t ∉ ops) :
    ∀ s' l, (s', Op.finalize, Out.released l) ∈ (run cfg s ops).2 → ∀ r ∈ l, r.acc ≠ a := by
  have key : ∀ (ops : List Op) (s : State),
      (∀ i, s.infos.get a = some i → s.singleMax < accrued s.today i) →
      (∀ x d, Op.setLimits true x d ∉ ops) → (∀ x d m t, Op.unstakingRelease x a d m t ∉ ops) →
      ∀ s' l, (s', Op.finalize, Out.released l) ∈ (run cfg s ops).2 → ∀ r ∈ l, r.acc ≠ a := by
    intro ops
    induction ops with
    | nil => intro s _ _ _ s' l hm; simp [run] at hm
    | cons op ops ih =>
      intro s hs h1 h2 s' l hm
      have hfin : ∀ r ∈ (finalize cfg s).2, r.acc ≠ a := by
        intro r hr heq
        by_cases hd : s.savedDay < s.today
        · rw [finalize_rollover cfg s hd] at hr; cases hr
        · obtain ⟨k, hk⟩ := finalize_released cfg s hd
          have : a ∈ k.map Prod.fst := by
            rw [← hk.accs, ← heq]; exact List.mem_map.2 ⟨r, hr, rfl⟩
          obtain ⟨⟨b, j⟩, hj, hb⟩ := List.mem_map.1 this
          rw [show b = a from hb] at hj
          have h3 := (hk.pos _ hj).2
          have h4 := hs j (hk.mem a j hj)
          simp only at h3
          omega
      have hs' : ∀ i, (step cfg s op).1.infos.get a = some i →
          (step cfg s op).1.singleMax < accrued (step cfg s op).1.today i := by
        rcases step_shape cfg s op with hsm | ⟨e, he⟩ | ⟨x, b, d, m, t, e, hr, _⟩ | ⟨x, l, e, hr⟩ | ⟨x, d, e, _⟩ | ⟨dt, b, p, k, e, hst⟩
        · have hnow : (step cfg s op).1.today = s.today := by unfold State.today; rw [hsm.now]
          rw [hsm.infos, hsm.singleMax, hnow]; exact hs
        · rw [he]
          by_cases hd : s.savedDay < s.today
          · rw [finalize_rollover cfg s hd]; exact hs
          · obtain ⟨k, hk⟩ := finalize_released cfg s hd
            have hnow : (finalize cfg s).1.today = s.today := by unfold State.today; rw [hk.same.1]
            have ha : a ∉ k.map Prod.fst := by
              intro ha
              rw [← hk.accs] at ha
              obtain ⟨r, hr, hra⟩ := List.mem_map.1 ha
              exact hfin r hr hra
            intro i hi
            simp only at hi ⊢
            rw [hk.infosOut a ha] at hi
            rw [hk.same.2.2.1, hnow]
            exact hs i hi
        · obtain ⟨_, _, _, _, _, heq⟩ := unstakingRelease_ok hr
          have hba : a ≠ b := by
            rintro rfl
            exact h2 x d m t (by rw [e]; simp)
          rw [heq]
          intro i hi
          simp only [FMap.get_insert_ne _ _ hba] at hi
          exact hs i hi
        · rw [removeInfos_ok hr]
          intro i hi
          simp only [foldl_erase_get] at hi
          split at hi
          · cases hi
          · exact hs i hi
        · exact absurd (by rw [e]; simp) (h1 x d)
        · rw [hst]
          intro i hi
          have h5 := hs i hi
          refine Nat.lt_of_lt_of_le h5 ?_
          unfold accrued
          apply Nat.mul_le_mul_left
          have := today_mono s dt
          have h6 : State.today { s with now := s.now + dt, bank := b, priv := p, slashOk := k } =
            (s.now + dt) / msPerDay := rfl
          omega
      simp only [run, List.mem_cons, Prod.mk.injEq] at hm
      rcases hm with ⟨_, ho, hl⟩ | hm
      · subst ho
        have : step cfg s .finalize = ((finalize cfg s).1, .released (finalize cfg s).2) := rfl
        rw [this] at hl
        cases hl
        exact hfin
      · exact ih _ hs' (fun x d hm => h1 x d (List.mem_cons_of_mem _ hm))
          (fun x d m t hm => h2 x d m t (List.mem_cons_of_mem _ hm)) s' l hm
  refine key ops s ?_ h1 h2
  intro j hj
  rw [hi] at hj
  cases hj
  exact hover

/-- The hypotheses of C63 are reached by three days without blocks. -/
example :
    let s := (run exCfg (genesis exBank 1000 100) [nextDay exBank, .finalize,
      .unstakingRelease 7 1 30 86400000 1200, nextDay exBank, nextDay exBank, nextDay exBank, .finalize]).1
    s.infos.get 1 = some ⟨30, 1200, 1, 1, 40⟩ ∧ s.singleMax < 40 * (s.today - 1) ∧
    (finalize exCfg s).2 = [] := by
  decide +kernel

/-! ### C28 -/

/-- C28. A bridge-out is accepted only from a bridge administrator with a fund pool set; it moves
exactly the amount from the user's account to the fund pool, changes no other balance and not the
total issuance, and adds the amount to the record of the chain. -/
theorem C28_bridge_out (cfg : Cfg) (s : State) (who src : AccId) (v : Balance) (chain : String)
    (h : (step cfg s (.bridgeOut who src v chain)).2 = .done) :
    let s' := (step cfg s (.bridgeOut who src v chain)).1
    s.priv who .bridgeAdmin = true ∧ ∃ f, s.fund = some f ∧
      (src ≠ f → s'.bank.free src + v = s.bank.free src ∧ s'.bank.free f = s.bank.free f + v ∧
        s'.bank.reserved src = s.bank.reserved src ∧ s'.bank.reserved f = s.bank.reserved f) ∧
      (src = f → s'.bank = s.bank) ∧
      (∀ x, x ≠ src → x ≠ f → s'.bank.acct x = s.bank.acct x) ∧
      s'.bank.issuance = s.bank.issuance ∧
      (s'.toOther.get chain).getD 0 = min ((s.toOther.get chain).getD 0 + v) (2 ^ 128 - 1) ∧
      (∀ c, c ≠ chain → s'.toOther.get c = s.toOther.get c) ∧ s'.fromOther = s.fromOther := by
  intro s'
  rcases step_cases cfg s (.bridgeOut who src v chain) with ⟨r, hb, hs⟩ | ⟨e, hb, hs⟩
  swap
  · rw [hs] at h; cases h
  simp only [body] at hb
  obtain ⟨s2, hr, hs2⟩ := map_ok hb
  have e : s' = s2 := by show (step cfg s (.bridgeOut who src v chain)).1 = _; rw [hs, ← hs2]
  unfold bridgeOut at hr
  split at hr
  · cases hr
  rename_i hp
  split at hr
  · cases hr
  rename_i f hf
  obtain ⟨b, hb2, heq⟩ := map_ok hr
  have ht := liftBank_ok hb2
  rw [e, ← heq]
  refine ⟨by simpa using hp, f, hf, ?_, ?_, ?_, ?_, ?_, ?_, rfl⟩
  · intro hne
    obtain ⟨h1, h2, h3, h4, _⟩ := Bank.transfer_exact ht hne
    exact ⟨h1, h2, h3, h4⟩
  · rintro rfl; exact Bank.transfer_self ht
  · intro x hx1 hx2
    by_cases hne : src = f
    · subst hne; rw [Bank.transfer_self ht]
    · exact (Bank.transfer_exact ht hne).2.2.2.2.1 x hx1 hx2
  · by_cases hne : src = f
    · subst hne; rw [Bank.transfer_self ht]
    · exact (Bank.transfer_exact ht hne).2.2.2.2.2.1
  · simp [satAdd128]
  · intro c hc; simp only [FMap.get_insert_ne _ _ hc]

/-- C28. A bridge-in is accepted only from a bridge administrator with a fund pool set; it moves
exactly the amount from the fund pool to the user, changes no other balance and not the total
issuance, and adds the amount to the record of the chain. -/
theorem C28_bridge_in (cfg : Cfg) (s : State) (who dst : AccId) (v : Balance) (chain : String)
    (h : (step cfg s (.bridgeIn who dst v chain)).2 = .done) :
    let s' := (step cfg s (.bridgeIn who dst v chain)).1
    s.priv who .bridgeAdmin = true ∧ ∃ f, s.fund = some f ∧
      (f ≠ dst → s'.bank.free f + v = s.bank.free f ∧ s'.bank.free dst = s.bank.free dst + v ∧
        s'.bank.reserved f = s.bank.reserved f ∧ s'.bank.reserved dst = s.bank.reserved dst) ∧
      (f = dst → s'.bank = s.bank) ∧
      (∀ x, x ≠ f → x ≠ dst → s'.bank.acct x = s.bank.acct x) ∧
      s'.bank.issuance = s.bank.issuance ∧
      (s'.fromOther.get chain).getD 0 = min ((s.fromOther.get chain).getD 0 + v) (2 ^ 128 - 1) ∧
      (∀ c, c ≠ chain → s'.fromOther.get c = s.fromOther.get c) ∧ s'.toOther = s.toOther := by
  intro s'
  rcases step_cases cfg s (.bridgeIn who dst v chain) with ⟨r, hb, hs⟩ | ⟨e, hb, hs⟩
  swap
  · rw [hs] at h; cases h
  simp only [body] at hb
  obtain ⟨s2, hr, hs2⟩ := map_ok hb
  have e : s' = s2 := by show (step cfg s (.bridgeIn who dst v chain)).1 = _; rw [hs, ← hs2]
  unfold bridgeIn at hr
  split at hr
  · cases hr
  rename_i hp
  split at hr
  · cases hr
  rename_i f hf
  obtain ⟨b, hb2, heq⟩ := map_ok hr
  have ht := liftBank_ok hb2
  rw [e, ← heq]
  refine ⟨by simpa using hp, f, hf, ?_, ?_, ?_, ?_, ?_, ?_, rfl⟩
  · intro hne
    obtain ⟨h1, h2, h3, h4, _⟩ := Bank.transfer_exact ht hne
    exact ⟨h1, h2, h3, h4⟩
  · rintro rfl; exact Bank.transfer_self ht
  · intro x hx1 hx2
    by_cases hne : f = dst
    · subst hne; rw [Bank.transfer_self ht]
    · exact (Bank.transfer_exact ht hne).2.2.2.2.1 x hx1 hx2
  · by_cases hne : f = dst
    · subst hne; rw [Bank.transfer_self ht]
    · exact (Bank.transfer_exact ht hne).2.2.2.2.2.1
  · simp [satAdd128]
  · intro c hc; simp only [FMap.get_insert_ne _ _ hc]

/-- C28: a call that fails changes nothing. -/
theorem C28_failed_call_changes_nothing (cfg : Cfg) (s : State) (op : Op) (e : Err)
    (h : (step cfg s op).2 = .failed e) : (step cfg s op).1 = s := by
  rcases step_cases cfg s op with ⟨r, hb, hs⟩ | ⟨e', hb, hs⟩
  · exfalso
    rw [hs] at h
    cases op <;> simp only [body] at hb
    all_goals
      first
      | (obtain ⟨x, _, hx⟩ := map_ok hb; rw [← hx] at h; cases h)
      | (cases hb; cases h)
  · rw [hs]

/-- C28: the fund pool address changes only by a bridge administrator. -/
theorem C28_fund_pool (cfg : Cfg) (s : State) (op : Op) (h : (step cfg s op).1.fund ≠ s.fund) :
    ∃ who f, op = .setFund who f ∧ s.priv who .bridgeAdmin = true ∧ (step cfg s op).1.fund = some f := by
  by_cases hset : ∃ who f, op = .setFund who f
  · obtain ⟨who, f, rfl⟩ := hset
    rcases step_cases cfg s (.setFund who f) with ⟨r, hb, hs⟩ | ⟨e, hb, hs⟩
    swap
    · rw [hs] at h; exact absurd rfl h
    simp only [body] at hb
    obtain ⟨s2, hr, hs2⟩ := map_ok hb
    unfold setFund at hr
    split at hr
    · cases hr
    rename_i hp
    cases hr
    exact ⟨who, f, rfl, by simpa using hp, by rw [hs, ← hs2]⟩
  · exfalso
    apply h
    rcases step_cases cfg s op with ⟨r, hb, hs⟩ | ⟨e, hb, hs⟩
    swap
    · rw [hs]
    rw [hs]
    cases op with
    | setFund who f => exact absurd ⟨who, f, rfl⟩ hset
    | forceRemoveLock r w f =>
      simp only [body] at hb
      obtain ⟨s', hr, hs'⟩ := map_ok hb
      rw [← hs']
      unfold forceRemoveLock at hr
      split at hr
      · cases hr
      · cases hr; rfl
    | forceReserve x w v =>
      simp only [body] at hb
      obtain ⟨s', hr, hs'⟩ := map_ok hb
      rw [← hs']
      unfold forceReserve at hr
      split at hr
      · cases hr
      · obtain ⟨b, _, rfl⟩ := map_ok hr; rfl
    | setLimits r x d =>
      simp only [body] at hb
      obtain ⟨s', hr, hs'⟩ := map_ok hb
      rw [← hs']
      unfold setLimits at hr
      split at hr
      · cases hr
      · cases hr; rfl
    | unstakingRelease x a d m t =>
      simp only [body] at hb
      obtain ⟨s', hr, hs'⟩ := map_ok hb
      rw [← hs', (unstakingRelease_ok hr).2.2.2.2.2]
    | removeInfos x l =>
      simp only [body] at hb
      obtain ⟨s', hr, hs'⟩ := map_ok hb
      rw [← hs', removeInfos_ok hr]
    | burnForEzc x v =>
      simp only [body] at hb
      obtain ⟨s', hr, hs'⟩ := map_ok hb
      rw [← hs']
      unfold burnForEzc at hr
      split at hr
      · cases hr
      · obtain ⟨b, _, rfl⟩ := map_ok hr; rfl
    | bridgeOut w x v c =>
      simp only [body] at hb
      obtain ⟨s', hr, hs'⟩ := map_ok hb
      rw [← hs']
      unfold bridgeOut at hr
      split at hr
      · cases hr
      split at hr
      · cases hr
      · obtain ⟨b, _, rfl⟩ := map_ok hr; rfl
    | bridgeIn w x v c =>
      simp only [body] at hb
      obtain ⟨s', hr, hs'⟩ := map_ok hb
      rw [← hs']
      unfold bridgeIn at hr
      split at hr
      · cases hr
      split at hr
      · cases hr
      · obtain ⟨b, _, rfl⟩ := map_ok hr; rfl
    | applyBridge w v c => simp only [body] at hb; cases hb; rfl
    | unlockAssets r x d v f =>
      simp only [body] at hb
      obtain ⟨s', hr, hs'⟩ := map_ok hb
      rw [← hs']
      unfold unlockAssets at hr
      split at hr
      · cases hr
      · obtain ⟨b, _, rfl⟩ := map_ok hr; rfl
    | finalize =>
      simp only [body] at hb
      cases hb
      show (finalize cfg s).1.fund = s.fund
      unfold finalize
      split
      · rfl
      · unfold releaseStaking
        split <;> rfl
    | external dt b p k => simp only [body] at hb; cases hb; rfl

/-- A concrete bridge-out and bridge-in. -/
example :
    let s := (run exCfg (genesis exBank 100 80) [.external 0 exBank allPriv (fun _ => true), .setFund 7 2]).1
    let r1 := step exCfg s (.bridgeOut 7 1 300 "bsc")
    let r2 := step exCfg r1.1 (.bridgeIn 7 1 100 "bsc")
    r1.2 = .done ∧ r2.2 = .done ∧ (r1.1.bank.free 1, r1.1.bank.free 2, r2.1.bank.free 1, r2.1.bank.free 2,
      r2.1.toOther.get "bsc", r2.1.fromOther.get "bsc") =
      (700, 1300, 800, 1200, some 300, some 100) := by
  decide +kernel

/-- C28, finding: a bridge-out needs no consent of the account it takes the money from: a bridge
administrator moves the balance of anybody into the fund pool. -/
theorem C28_admin_moves_foreign_balance :
    ∃ (s : State) (who src : AccId) (v : Balance), who ≠ src ∧
      (step exCfg s (.bridgeOut who src v "x")).2 = .done ∧
      (step exCfg s (.bridgeOut who src v "x")).1.bank.free src < s.bank.free src := by
  refine ⟨(run exCfg (genesis exBank 100 80) [.external 0 exBank allPriv (fun _ => true), .setFund 7 2]).1,
    7, 1, 300, by decide, ?_⟩
  decide +kernel

/-! ### C29 -/

/-- C29. Burning for EZC takes exactly the given amount, which is at least the minimum, from the
caller and passes it to the account that receives burnt balance (the treasury); no other account
changes, and the amount is reported to the credit pallet. If the receiver cannot be credited (it does
not exist and the amount is below the existential deposit) the amount disappears. -/
theorem C29_burn_for_ezc (cfg : Cfg) (s : State) (hb : s.bank.Inv) (sender : AccId) (v : Balance)
    (hne : sender ≠ cfg.burnedTo) (h : (step cfg s (.burnForEzc sender v)).2 = .done) :
    let s' := (step cfg s (.burnForEzc sender v)).1
    cfg.minBurn ≤ v ∧ s'.bank.free sender + v = s.bank.free sender ∧
    s'.bank.reserved sender = s.bank.reserved sender ∧
    ((s.bank.accts.contains cfg.burnedTo = true ∨ s.bank.ed ≤ v) →
      s'.bank.free cfg.burnedTo = s.bank.free cfg.burnedTo + v ∧ s'.bank.sumAll = s.bank.sumAll) ∧
    s'.bank.reserved cfg.burnedTo = s.bank.reserved cfg.burnedTo ∧
    (∀ x, x ≠ sender → x ≠ cfg.burnedTo → s'.bank.acct x = s.bank.acct x) ∧
    s'.burnt = v :: s.burnt := by
  intro s'
  rcases step_cases cfg s (.burnForEzc sender v) with ⟨r, hbd, hs⟩ | ⟨e, hbd, hs⟩
  swap
  · rw [hs] at h; cases h
  simp only [body] at hbd
  obtain ⟨s2, hr, hs2⟩ := map_ok hbd
  have e : s' = s2 := by show (step cfg s (.burnForEzc sender v)).1 = _; rw [hs, ← hs2]
  unfold burnForEzc at hr
  split at hr
  · cases hr
  rename_i hmin
  obtain ⟨b, hb2, heq⟩ := map_ok hr
  have hw := liftBank_ok hb2
  obtain ⟨w1, w2, w3, w4, w5, w6, w7, w8⟩ := Bank.withdraw_keep hb hw
  have hbi := Bank.withdraw_inv hb hw
  rw [e, ← heq]
  have hsnd := (Bank.depositCreating_ne (b := b) v hne).1
  refine ⟨by omega, ?_, ?_, ?_, ?_, ?_, rfl⟩
  · have : (b.depositCreating cfg.burnedTo v).free sender = b.free sender := congrArg Acct.free hsnd
    simp only [this]; omega
  · have : (b.depositCreating cfg.burnedTo v).reserved sender = b.reserved sender := congrArg Acct.reserved hsnd
    simp only [this]; omega
  · intro hc
    have hc' : b.accts.contains cfg.burnedTo = true ∨ b.ed ≤ v := by
      rw [w6, w7]; exact hc
    obtain ⟨c1, c2, _⟩ := Bank.depositCreating_credit hbi hc'
    have hf : b.free cfg.burnedTo = s.bank.free cfg.burnedTo := congrArg Acct.free (w5 _ (Ne.symm hne))
    simp only [c1, c2, hf]
    exact ⟨trivial, w1⟩
  · have hf : b.reserved cfg.burnedTo = s.bank.reserved cfg.burnedTo :=
      congrArg Acct.reserved (w5 _ (Ne.symm hne))
    simp only [Bank.depositCreating_reserved hbi, hf]
  · intro x hx1 hx2
    simp only [(Bank.depositCreating_ne (b := b) v hx2).1]
    exact w5 x hx1

/-- C29: amounts below the minimum are refused. -/
theorem C29_minimum (cfg : Cfg) (s : State) (sender : AccId) (v : Balance) (h : v < cfg.minBurn) :
    step cfg s (.burnForEzc sender v) = (s, .failed .burnedDprTooLow) := by
  simp [step, body, burnForEzc, h, Except.map]

example :
    let r := step exCfg (genesis exBank 100 80) (.burnForEzc 1 200)
    (r.2, r.1.bank.free 1, r.1.bank.free 99, r.1.burnt, r.1.bank.issuance) = (.done, 800, 200, [200], 2000) := by
  decide +kernel

end Verif.Operation
