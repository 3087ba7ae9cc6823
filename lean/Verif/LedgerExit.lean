import Verif.LedgerLaw

/-!
C138: nobody is locked in. Whatever the others do, who has bonded gets everything out with two or three calls and
a wait of one or two bonding durations.
-/

namespace Verif.Ledger

theorem run_append (cfg : Cfg) (ops ops' : List Op) : ∀ s, (run cfg s (ops ++ ops')).1 = (run cfg (run cfg s ops).1 ops').1 := by
  induction ops with
  | nil => intro s; rfl
  | cons op ops ih => intro s; exact ih _

/-! ### No chunk has to wait longer than the bonding duration -/

/-- All chunks are due at era `b`. -/
def DueBy (b : Nat) (cs : List Chunk) : Prop := ∀ ch ∈ cs, ch.era ≤ b

theorem DueBy.mono {b b' : Nat} {cs : List Chunk} (h : DueBy b cs) (hb : b ≤ b') : DueBy b' cs :=
  fun ch hc => Nat.le_trans (h ch hc) hb

theorem DueBy.reverse {b : Nat} {cs : List Chunk} (h : DueBy b cs) : DueBy b cs.reverse :=
  fun ch hc => h ch (List.mem_reverse.1 hc)

theorem rebondLoop_due (b value : Nat) (cs : List Chunk) : ∀ active got, DueBy b cs →
    DueBy b (rebondLoop value cs active got).2 ∧ (rebondLoop value cs active got).2.length ≤ cs.length := by
  induction cs with
  | nil => intro active got h; exact ⟨h, Nat.le_refl _⟩
  | cons c cs ih =>
    intro active got h
    have ht : DueBy b cs := fun x hx => h x (List.mem_cons_of_mem _ hx)
    unfold rebondLoop
    split
    · split
      · exact ⟨ht, Nat.le_succ _⟩
      · obtain ⟨i1, i2⟩ := ih (active + c.value) (got + c.value) ht
        exact ⟨i1, Nat.le_succ_of_le i2⟩
    · refine ⟨?_, Nat.le_refl _⟩
      intro x hx
      rcases List.mem_cons.1 hx with rfl | hx
      · exact h c List.mem_cons_self
      · exact ht x hx

theorem slashChunks_due (b m : Nat) (cs : List Chunk) : ∀ total value, DueBy b cs →
    DueBy b (slashChunks m cs total value).2 ∧ (slashChunks m cs total value).2.length ≤ cs.length := by
  induction cs with
  | nil => intro total value h; exact ⟨h, Nat.le_refl _⟩
  | cons c cs ih =>
    intro total value h
    have ht : DueBy b cs := fun x hx => h x (List.mem_cons_of_mem _ hx)
    unfold slashChunks
    dsimp only
    split
    · obtain ⟨i1, i2⟩ := ih (slashPart m total c.value value).1 (slashPart m total c.value value).2.2 ht
      exact ⟨i1, Nat.le_succ_of_le i2⟩
    · refine ⟨?_, Nat.le_refl _⟩
      intro x hx
      rcases List.mem_cons.1 hx with rfl | hx
      · exact h c List.mem_cons_self
      · exact ht x hx

theorem slashPart_active (m total target value : Nat) : (slashPart m total target value).2.1 ≤ target := by
  unfold slashPart
  dsimp only
  split
  · exact Nat.le_refl _
  · split
    · exact Nat.zero_le _
    · exact Nat.sub_le _ _

theorem slashLedger_due {b : Nat} {l : Ledger} (h : DueBy b l.unlocking) (v m : Nat) :
    DueBy b (slashLedger l v m).1.unlocking ∧ (slashLedger l v m).1.unlocking.length ≤ l.unlocking.length ∧
    (slashLedger l v m).1.active ≤ l.active ∧ (slashLedger l v m).1.stash = l.stash := by
  obtain ⟨h1, h2⟩ := slashChunks_due b m l.unlocking (slashPart m l.total l.active v).1 (slashPart m l.total l.active v).2.2 h
  exact ⟨h1, h2, slashPart_active _ _ _ _, rfl⟩

/-- All chunks of all ledgers are due after the bonding duration at the latest. -/
def Young (cfg : Cfg) (s : State) : Prop :=
  ∀ c l, s.ledgers.get c = some l → DueBy (s.era.getD 0 + cfg.bondingDuration) l.unlocking

theorem Young.update {cfg : Cfg} {s s0 : State} {c : AccId} {l' : Ledger} (h : Young cfg s)
    (h1 : s0.ledgers = s.ledgers) (h2 : s0.era = s.era)
    (hd : DueBy (s.era.getD 0 + cfg.bondingDuration) l'.unlocking) : Young cfg (updateLedger cfg s0 c l') := by
  obtain ⟨-, e2, -, e4, -⟩ := setLock_fields cfg s0 l'.stash l'.total
  intro c' m hm
  have he : (updateLedger cfg s0 c l').era = s.era := by
    show (setLock cfg s0 l'.stash l'.total).era = _
    rw [e4, h2]
  rw [he]
  have hm' : ((setLock cfg s0 l'.stash l'.total).ledgers.insert c l').get c' = some m := hm
  rw [e2, h1, FMap.get_insert] at hm'
  split at hm'
  · cases hm'; exact hd
  · exact h c' m hm'

theorem Young.kill {cfg : Cfg} {s s1 : State} {a : AccId} {k : Bool} (h : Young cfg s) (hk : killStash s a k = .ok s1)
    (x : AccId) : Young cfg (removeLock s1 x) := by
  obtain ⟨c, -, rfl⟩ := killStash_ok hk
  intro c' m hm
  have hm' : (s.ledgers.erase c).get c' = some m := hm
  rw [FMap.get_erase] at hm'
  split at hm'
  · cases hm'
  · exact h c' m hm'

theorem young_step (cfg : Cfg) {s : State} (h : Young cfg s) (op : Op) : Young cfg (step cfg s op).1 := by
  rcases step_cases cfg s op with ⟨r, hb, hs⟩ | ⟨e, hb, hs⟩
  rotate_left
  · rw [hs]; exact h
  rw [hs]
  cases op with
  | bond a c v p r' =>
    simp only [body, bond] at hb
    split at hb
    · cases hb
    split at hb
    · cases hb
    split at hb
    · cases hb
    split at hb
    · cases hb
    cases hb
    exact h.update rfl rfl (fun ch hc => by cases hc)
  | setMinBond r' v =>
    simp only [body, setMinBond] at hb
    split at hb
    · cases hb
    split at hb
    · cases hb
    cases hb
    exact h
  | bondExtra a v =>
    simp only [body, bondExtra] at hb
    split at hb
    · cases hb
    split at hb
    · cases hb
    split at hb
    · cases hb
    rename_i l hl
    split at hb
    · cases hb; exact h
    split at hb
    · cases hb
    cases hb
    exact h.update rfl rfl (h _ l hl)
  | unbond c v =>
    simp only [body, unbond] at hb
    split at hb
    · cases hb
    split at hb
    · cases hb
    rename_i l hl
    split at hb
    · cases hb
    split at hb
    · cases hb; exact h
    cases hb
    refine h.update rfl rfl ?_
    intro ch hc
    rcases List.mem_append.1 hc with hc | hc
    · exact h _ l hl ch hc
    · rw [List.mem_singleton.1 hc]; exact Nat.le_refl _
  | withdraw c k =>
    simp only [body, withdraw] at hb
    split at hb
    · cases hb
    split at hb
    · cases hb
    rename_i l hl
    split at hb
    · split at hb
      · cases hb
      · rename_i hk
        cases hb
        exact h.kill hk _
    · cases hb
      refine h.update rfl rfl ?_
      intro ch hc
      refine h _ l hl ch ?_
      cases he : s.era with
      | none => rw [he] at hc; exact hc
      | some e => rw [he] at hc; exact (List.mem_filter.1 hc).1
  | validate c p =>
    simp only [body, validate] at hb
    split at hb
    · cases hb
    split at hb
    · cases hb
    cases hb
    exact h
  | chill c =>
    simp only [body, chill] at hb
    split at hb
    · cases hb
    split at hb
    · cases hb
    cases hb
    exact h
  | setPayee c d =>
    simp only [body, setPayee] at hb
    split at hb
    · cases hb
    cases hb
    exact h
  | setController a c =>
    simp only [body, setController] at hb
    split at hb
    · cases hb
    split at hb
    · cases hb
    split at hb
    · cases hb; exact h
    split at hb
    · cases hb; exact h
    rename_i l hl
    cases hb
    intro c' m hm
    have hm' : ((s.ledgers.erase _).insert c l).get c' = some m := hm
    rw [FMap.get_insert] at hm'
    split at hm'
    · cases hm'; exact h _ _ hl
    · rw [FMap.get_erase] at hm'
      split at hm'
      · cases hm'
      · exact h c' m hm'
  | forceUnstake r' a k =>
    simp only [body, forceUnstake] at hb
    split at hb
    · cases hb
    split at hb
    · cases hb
    rename_i hk
    cases hb
    exact h.kill hk _
  | rebond c v =>
    simp only [body, rebond] at hb
    split at hb
    · cases hb
    split at hb
    · cases hb
    rename_i l hl
    split at hb
    · cases hb
    split at hb
    · cases hb
    cases hb
    exact h.update rfl rfl (rebondLoop_due _ _ _ _ _ (h _ l hl).reverse).1.reverse
  | reap a k =>
    simp only [body, reap] at hb
    split at hb
    · cases hb
    split at hb
    · cases hb
    rename_i hk
    cases hb
    exact h.kill hk _
  | burn c v =>
    simp only [body, burn] at hb
    split at hb
    · cases hb
    rename_i l hl
    cases hb
    exact h.update rfl rfl (slashLedger_due (h _ l hl) _ _).1
  | slash a v =>
    simp only [body, doSlash] at hb
    split at hb
    · cases hb; exact h
    split at hb
    · cases hb; exact h
    rename_i l hl
    split at hb
    · cases hb; exact h
    · cases hb
      exact h.update rfl rfl (slashLedger_due (h _ l hl) _ _).1
  | payout a v =>
    simp only [body, payout] at hb
    cases hb
    dsimp only
    split
    · split
      · exact h
      · exact h
    · exact h
    · split
      · exact h
      split
      · exact h
      rename_i l hl
      exact h.update rfl rfl (h _ l hl)
    · exact h
  | kick a => simp only [body] at hb; cases hb; exact h
  | newEra =>
    simp only [body] at hb
    cases hb
    intro c l hl
    refine (h c l hl).mono ?_
    dsimp only
    cases s.era with
    | none => exact Nat.le_refl _
    | some e => simp only [Option.getD_some]; omega
  | external b o k => simp only [body] at hb; cases hb; exact h

theorem run_young (cfg : Cfg) (ops : List Op) : ∀ s, Young cfg s → Young cfg (run cfg s ops).1 := by
  induction ops with
  | nil => intro s h; exact h
  | cons op ops ih => intro s h; exact ih _ (young_step cfg h op)

theorem genesis_young (cfg : Cfg) (bank : Bank) (m : Balance) : Young cfg (genesis bank m) :=
  fun c l h => by simp [genesis] at h

/-! ### What others can do while somebody leaves -/

/-- What happens to the stash `a` without its doing, except a reward that is added to its stake: slashes, the loss
of its candidacy, rewards paid elsewhere, being reaped, and being unstaked by root. -/
def Suffers (s : State) (a : AccId) (op : Op) : Prop :=
  (∃ v, op = .slash a v) ∨ op = .kick a ∨
  (∃ v d, op = .payout a v ∧ s.payees.get a = some d ∧ d ≠ .staked) ∨
  (∃ k, op = .reap a k) ∨ (∃ r k, op = .forceUnstake r a k)

/-- Nothing in this history is done by the stash `a` or its controller, and no reward is added to its stake. -/
def Leaving (a : AccId) (tr : List (State × Op × Out)) : Prop :=
  ∀ e ∈ tr, ¬ concerns e.1 a e.2.1 ∨ Suffers e.1 a e.2.1

/-- The stash `a` is not bonded, or it is with an active stake of at most `x`, at most `n` chunks, all of them due
at era `b`. -/
def Within (s : State) (a c : AccId) (x n b : Nat) : Prop :=
  s.bonded.get a = none ∨ (s.bonded.get a = some c ∧
    ∃ l, s.ledgers.get c = some l ∧ l.stash = a ∧ l.active ≤ x ∧ l.unlocking.length ≤ n ∧ DueBy b l.unlocking)

theorem within_untouched {s s' : State} {a c : AccId} {x n b : Nat} (h : Within s a c x n b) (hu : Untouched s s' a) :
    Within s' a c x n b := by
  rcases h with h | ⟨h1, l, h2, h3⟩
  · exact Or.inl (hu.bonded.trans h)
  · refine Or.inr ⟨hu.bonded.trans h1, l, ?_, h3⟩
    have := hu.ledger
    unfold ledgerOf at this
    rw [hu.bonded, h1] at this
    exact this.trans h2

theorem within_slash (cfg : Cfg) {s : State} {a c : AccId} {x n b : Nat} (h : Within s a c x n b) (v : Balance) :
    Within (step cfg s (.slash a v)).1 a c x n b := by
  show Within (doSlash cfg s a v).1 a c x n b
  rcases h with h | ⟨h1, l, h2, h3, h4, h5, h6⟩
  · unfold doSlash; rw [h]; exact Or.inl h
  · unfold doSlash
    rw [h1]; dsimp only
    rw [h2]; dsimp only
    split
    · exact Or.inr ⟨h1, l, h2, h3, h4, h5, h6⟩
    · obtain ⟨d1, d2, d3, d4⟩ := slashLedger_due h6 v s.bank.ed
      refine Or.inr ⟨?_, _, FMap.get_insert_self _ _ _, d4.trans h3, Nat.le_trans d3 h4, Nat.le_trans d2 h5, d1⟩
      show (setLock cfg _ _ _).bonded.get a = _
      rw [(setLock_fields cfg _ _ _).1]
      exact h1

theorem within_same {s s' : State} {a c : AccId} {x n b : Nat} (h : Within s a c x n b)
    (h1 : s'.bonded = s.bonded) (h2 : s'.ledgers = s.ledgers) : Within s' a c x n b := by
  unfold Within
  rw [h1, h2]
  exact h

theorem killed_none {s s' : State} {a : AccId} {k : Bool} (h : killStash s a k = .ok s') : s'.bonded.get a = none := by
  obtain ⟨c, -, rfl⟩ := killStash_ok h
  exact FMap.get_erase_self _ _

theorem within_suffers (cfg : Cfg) {s : State} {a c : AccId} {x n b : Nat} (h : Within s a c x n b) {op : Op}
    (ho : Suffers s a op) : Within (step cfg s op).1 a c x n b := by
  rcases ho with ⟨v, rfl⟩ | rfl | ⟨v, d, rfl, hd, hd'⟩ | ⟨k, rfl⟩ | ⟨r, k, rfl⟩
  · exact within_slash cfg h v
  · exact within_same h rfl rfl
  · show Within (payout cfg s a v) a c x n b
    unfold payout
    rw [hd]
    cases d with
    | staked => exact absurd rfl hd'
    | stash => exact within_same h rfl rfl
    | controller =>
      dsimp only [Option.getD]
      split
      · exact h
      · exact within_same h rfl rfl
    | account y => exact within_same h rfl rfl
  · rcases step_cases cfg s (.reap a k) with ⟨r, hr, hs⟩ | ⟨e, hr, hs⟩
    · rw [hs]
      simp only [body, reap] at hr
      split at hr
      · cases hr
      split at hr
      · cases hr
      · rename_i hk
        cases hr
        have h0 := killed_none hk
        unfold removeLock
        exact Or.inl h0
    · rw [hs]; exact h
  · rcases step_cases cfg s (.forceUnstake r a k) with ⟨q, hr, hs⟩ | ⟨e, hr, hs⟩
    · rw [hs]
      simp only [body, forceUnstake] at hr
      split at hr
      · cases hr
      split at hr
      · cases hr
      · rename_i hk
        cases hr
        have h0 := killed_none hk
        unfold removeLock
        exact Or.inl h0
    · rw [hs]; exact h

theorem within_run (cfg : Cfg) (bank : Bank) (m : Balance) (a c : AccId) (x n b : Nat) (e : List Op) : ∀ ops,
    Within (run cfg (genesis bank m) ops).1 a c x n b → Leaving a (run cfg (run cfg (genesis bank m) ops).1 e).2 →
    Within (run cfg (run cfg (genesis bank m) ops).1 e).1 a c x n b := by
  induction e with
  | nil => intro ops h _; exact h
  | cons op e ih =>
    intro ops h hl
    have h1 : Within (step cfg (run cfg (genesis bank m) ops).1 op).1 a c x n b := by
      rcases hl _ List.mem_cons_self with hc | hv
      · exact within_untouched h (C89_own_bond_only cfg bank m ops op a hc)
      · exact within_suffers cfg h hv
    have e1 : (step cfg (run cfg (genesis bank m) ops).1 op).1 = (run cfg (genesis bank m) (ops ++ [op])).1 := by
      rw [run_append]; rfl
    have := ih (ops ++ [op]) (by rw [← e1]; exact h1)
      (by rw [← e1]; exact fun y hy => hl y (List.mem_cons_of_mem _ hy))
    rw [← e1] at this
    exact this

/-! ### The calls -/

/-- Unbonding everything, with room for another chunk. -/
theorem unbond_all (cfg : Cfg) {s : State} {a c : AccId} {x n b : Nat} (h : Within s a c x n b)
    (hcl : s.closed = true) (hn : n < cfg.maxChunks) (hb : s.era.getD 0 + cfg.bondingDuration ≤ b) (v : Balance)
    (hv : x ≤ v) : Within (step cfg s (.unbond c v)).1 a c 0 (n + 1) b := by
  rcases h with h | ⟨h1, l, h2, h3, h4, h5, h6⟩
  · refine Or.inl ?_
    rcases step_cases cfg s (.unbond c v) with ⟨r, hr, hs⟩ | ⟨e, hr, hs⟩
    · rw [hs]
      simp only [body, unbond] at hr
      split at hr
      · cases hr
      split at hr
      · cases hr
      split at hr
      · cases hr
      split at hr
      · cases hr; exact h
      cases hr
      show (setLock cfg _ _ _).bonded.get a = _
      rw [(setLock_fields cfg _ _ _).1]
      exact h
    · rw [hs]; exact h
  · have hst : step cfg s (.unbond c v) = match unbond cfg s c v with | .ok r => r | .error e => (s, .failed e) := rfl
    have hmin : min v l.active = l.active := Nat.min_eq_right (Nat.le_trans h4 hv)
    unfold unbond at hst
    rw [if_neg (by rw [hcl]; decide), h2] at hst
    dsimp only at hst
    rw [if_neg (by omega), hmin] at hst
    by_cases h0 : l.active = 0
    · rw [if_pos h0] at hst
      rw [hst]
      exact Or.inr ⟨h1, l, h2, h3, by omega, by omega, h6⟩
    · rw [if_neg h0] at hst
      rw [hst]
      refine Or.inr ⟨?_, _, FMap.get_insert_self _ _ _, h3, ?_, ?_, ?_⟩
      · show (setLock cfg _ _ _).bonded.get a = _
        rw [(setLock_fields cfg _ _ _).1]
        exact h1
      · dsimp only
        split <;> omega
      · dsimp only
        rw [List.length_append, List.length_singleton]
        omega
      · intro ch hc
        rcases List.mem_append.1 hc with hc | hc
        · exact h6 ch hc
        · rw [List.mem_singleton.1 hc]; exact hb

/-- Withdrawing when all chunks are due. -/
theorem withdraw_all (cfg : Cfg) {s : State} {a c : AccId} {x n b now : Nat} (h : Within s a c x n b)
    (hcl : s.closed = true) (he : s.era = some now) (hb : b ≤ now) :
    Within (step cfg s (.withdraw c true)).1 a c x 0 0 ∧
    (x ≤ s.bank.ed → (step cfg s (.withdraw c true)).1.bonded.get a = none) := by
  rcases h with h | ⟨h1, l, h2, h3, h4, h5, h6⟩
  · suffices hh : (step cfg s (.withdraw c true)).1.bonded.get a = none from ⟨Or.inl hh, fun _ => hh⟩
    rcases step_cases cfg s (.withdraw c true) with ⟨r, hr, hs⟩ | ⟨e, hr, hs⟩
    · rw [hs]
      simp only [body, withdraw] at hr
      split at hr
      · cases hr
      split at hr
      · cases hr
      split at hr
      · split at hr
        · cases hr
        · rename_i hk
          cases hr
          obtain ⟨c', -, rfl⟩ := killStash_ok hk
          show (s.bonded.erase _).get a = none
          rw [FMap.get_erase]
          split
          · rfl
          · exact h
      · cases hr
        show (setLock cfg _ _ _).bonded.get a = _
        rw [(setLock_fields cfg _ _ _).1]
        exact h
    · rw [hs]; exact h
  · have hst : step cfg s (.withdraw c true) =
        match withdraw cfg s c true with | .ok r => r | .error e => (s, .failed e) := rfl
    have hun : (consolidateAt l (some now)).unlocking = [] := by
      show l.unlocking.filter (fun ch => decide (now < ch.era)) = []
      rw [List.filter_eq_nil_iff]
      intro ch hc
      have := h6 ch hc
      simp only [decide_eq_true_eq]
      omega
    have hac : (consolidateAt l (some now)).active = l.active := rfl
    unfold withdraw at hst
    rw [if_neg (by rw [hcl]; decide), h2, he] at hst
    dsimp only at hst
    rw [hun, hac] at hst
    by_cases hed : l.active ≤ s.bank.ed
    · rw [if_pos ⟨rfl, hed⟩] at hst
      unfold killStash at hst
      rw [h3, h1] at hst
      dsimp only at hst
      rw [if_neg (by decide)] at hst
      dsimp only at hst
      have hh : (step cfg s (.withdraw c true)).1.bonded.get a = none := by
        rw [hst]; exact FMap.get_erase_self _ _
      exact ⟨Or.inl hh, fun _ => hh⟩
    · rw [if_neg (fun hh => hed hh.2)] at hst
      rw [hst]
      refine ⟨Or.inr ⟨?_, _, FMap.get_insert_self _ _ _, h3, h4, ?_, ?_⟩, fun hx => absurd (Nat.le_trans h4 hx) hed⟩
      · show (setLock cfg _ _ _).bonded.get a = _
        rw [(setLock_fields cfg _ _ _).1]
        exact h1
      · rw [hun]; exact Nat.le_refl _
      · rw [hun]; intro ch hc; cases hc

/-! ### C138 -/

theorem inv_at (cfg : Cfg) (bank : Bank) (m : Balance) (ops : List Op) : Inv cfg (run cfg (genesis bank m) ops).1 :=
  run_inv cfg ops _ (genesis_inv cfg bank m)

/-- C138. In every reachable state, who has fewer than the maximal number of chunks unlocking leaves with two calls:
unbond everything; when the bonding duration has passed, withdraw. Whatever others do in between, also if the stash
is slashed, afterwards it is not bonded any more and nothing is locked. -/
theorem C138_leave (cfg : Cfg) (bank : Bank) (m : Balance) (ops : List Op) (a c : AccId) (l : Ledger) (v : Balance)
    (wait : List Op) (now : Nat) :
    let s0 := (run cfg (genesis bank m) ops).1
    let s1 := (step cfg s0 (.unbond c v)).1
    let s2 := (run cfg s1 wait).1
    let s3 := (step cfg s2 (.withdraw c true)).1
    s0.bonded.get a = some c → s0.ledgers.get c = some l → l.active ≤ v → l.unlocking.length < cfg.maxChunks →
    s0.closed = true → Leaving a (run cfg s1 wait).2 → s2.closed = true → s2.era = some now →
    s0.era.getD 0 + cfg.bondingDuration ≤ now → s3.bonded.get a = none ∧ s3.locks.get a = none := by
  intro s0 s1 s2 s3 hb hl hv hn hc0 hq hc2 he hnow
  have hi := inv_at cfg bank m ops
  have hst : l.stash = a := by
    obtain ⟨l', g1, g2⟩ := hi.forward a c hb
    rw [show (run cfg (genesis bank m) ops).1.ledgers.get c = some l from hl] at g1
    cases g1; exact g2
  have w0 : Within s0 a c l.active l.unlocking.length (s0.era.getD 0 + cfg.bondingDuration) :=
    Or.inr ⟨hb, l, hl, hst, Nat.le_refl _, Nat.le_refl _, run_young cfg ops _ (genesis_young cfg bank m) c l hl⟩
  have w1 : Within s1 a c 0 (l.unlocking.length + 1) (s0.era.getD 0 + cfg.bondingDuration) :=
    unbond_all cfg w0 hc0 hn (Nat.le_refl _) v hv
  have e1 : s1 = (run cfg (genesis bank m) (ops ++ [.unbond c v])).1 := by rw [run_append]; rfl
  have w2 : Within s2 a c 0 (l.unlocking.length + 1) (s0.era.getD 0 + cfg.bondingDuration) := by
    have := within_run cfg bank m a c 0 (l.unlocking.length + 1) (s0.era.getD 0 + cfg.bondingDuration) wait
      (ops ++ [.unbond c v]) (by rw [← e1]; exact w1) (by rw [← e1]; exact hq)
    rw [← e1] at this
    exact this
  have e2 : s2 = (run cfg (genesis bank m) (ops ++ [.unbond c v] ++ wait)).1 := by
    rw [run_append, ← e1]
  have hi2 : Inv cfg s2 := by rw [e2]; exact inv_at cfg bank m _
  have h3 := (withdraw_all cfg w2 hc2 he hnow).2 (Nat.zero_le _)
  have e3 : s3 = (run cfg (genesis bank m) (ops ++ [.unbond c v] ++ wait ++ [.withdraw c true])).1 := by
    rw [run_append, ← e2]; rfl
  have hi3 : Inv cfg s3 := by rw [e3]; exact inv_at cfg bank m _
  exact ⟨h3, hi3.noLock a h3⟩

/-- C138. Who has the maximal number of chunks unlocking waits first: after one bonding duration everything that is
unlocking can be withdrawn, and then the others leave as before, after at most two bonding durations in all. -/
theorem C138_leave_full (cfg : Cfg) (hmax : 0 < cfg.maxChunks) (bank : Bank) (m : Balance) (ops : List Op)
    (a c : AccId) (l : Ledger) (v : Balance) (wait wait' : List Op) (now now' : Nat) :
    let s0 := (run cfg (genesis bank m) ops).1
    let s1 := (run cfg s0 wait).1
    let s2 := (step cfg s1 (.withdraw c true)).1
    let s3 := (step cfg s2 (.unbond c v)).1
    let s4 := (run cfg s3 wait').1
    let s5 := (step cfg s4 (.withdraw c true)).1
    s0.bonded.get a = some c → s0.ledgers.get c = some l → l.active ≤ v →
    Leaving a (run cfg s0 wait).2 → s1.closed = true → s1.era = some now →
    s0.era.getD 0 + cfg.bondingDuration ≤ now →
    Leaving a (run cfg s3 wait').2 → s4.closed = true → s4.era = some now' → now + cfg.bondingDuration ≤ now' →
    s5.bonded.get a = none ∧ s5.locks.get a = none := by
  intro s0 s1 s2 s3 s4 s5 hb hl hv hq1 hc1 he1 hn1 hq2 hc4 he4 hn4
  have hi := inv_at cfg bank m ops
  have hst : l.stash = a := by
    obtain ⟨l', g1, g2⟩ := hi.forward a c hb
    rw [show (run cfg (genesis bank m) ops).1.ledgers.get c = some l from hl] at g1
    cases g1; exact g2
  have w0 : Within s0 a c l.active l.unlocking.length (s0.era.getD 0 + cfg.bondingDuration) :=
    Or.inr ⟨hb, l, hl, hst, Nat.le_refl _, Nat.le_refl _, run_young cfg ops _ (genesis_young cfg bank m) c l hl⟩
  have w1 : Within s1 a c l.active l.unlocking.length (s0.era.getD 0 + cfg.bondingDuration) :=
    within_run cfg bank m a c _ _ _ wait ops w0 hq1
  have e1 : s1 = (run cfg (genesis bank m) (ops ++ wait)).1 := by rw [run_append]
  have hi1 : Inv cfg s1 := by rw [e1]; exact inv_at cfg bank m _
  have w2 := (withdraw_all cfg w1 hc1 he1 hn1).1
  have e2 : s2 = (run cfg (genesis bank m) (ops ++ wait ++ [.withdraw c true])).1 := by
    rw [run_append, ← e1]; rfl
  have hi2 : Inv cfg s2 := by rw [e2]; exact inv_at cfg bank m _
  have hera : s2.era = some now := by
    rcases step_era_eq cfg s1 (.withdraw c true) with h | h
    · cases h
    · exact h.trans he1
  have hc2 : s2.closed = true := by
    show (step cfg s1 (.withdraw c true)).1.closed = true
    rcases step_cases cfg s1 (.withdraw c true) with ⟨r, hr, hs⟩ | ⟨e, hr, hs⟩
    · rw [hs]
      simp only [body, withdraw] at hr
      split at hr
      · cases hr
      split at hr
      · cases hr
      split at hr
      · split at hr
        · cases hr
        · rename_i hk
          cases hr
          obtain ⟨c', -, rfl⟩ := killStash_ok hk
          exact hc1
      · cases hr
        show (setLock cfg s1 _ _).closed = true
        unfold setLock
        split <;> exact hc1
    · rw [hs]; exact hc1
  have w2' : Within s2 a c l.active 0 (now + cfg.bondingDuration) := by
    rcases w2 with h | ⟨h1, l', h2, h3, h4, h5, h6⟩
    · exact Or.inl h
    · exact Or.inr ⟨h1, l', h2, h3, h4, h5, h6.mono (Nat.zero_le _)⟩
  have w3 : Within s3 a c 0 1 (now + cfg.bondingDuration) :=
    unbond_all cfg w2' hc2 hmax (by rw [hera]; exact Nat.le_refl _) v hv
  have e3 : s3 = (run cfg (genesis bank m) (ops ++ wait ++ [.withdraw c true] ++ [.unbond c v])).1 := by
    rw [run_append, ← e2]; rfl
  have w4 : Within s4 a c 0 1 (now + cfg.bondingDuration) := by
    have := within_run cfg bank m a c 0 1 (now + cfg.bondingDuration) wait'
      (ops ++ wait ++ [.withdraw c true] ++ [.unbond c v]) (by rw [← e3]; exact w3) (by rw [← e3]; exact hq2)
    rw [← e3] at this
    exact this
  have e4 : s4 = (run cfg (genesis bank m) (ops ++ wait ++ [.withdraw c true] ++ [.unbond c v] ++ wait')).1 := by
    rw [run_append, ← e3]
  have hi4 : Inv cfg s4 := by rw [e4]; exact inv_at cfg bank m _
  have h5 := (withdraw_all cfg w4 hc4 he4 hn4).2 (Nat.zero_le _)
  have e5 : s5 = (run cfg (genesis bank m)
      (ops ++ wait ++ [.withdraw c true] ++ [.unbond c v] ++ wait' ++ [.withdraw c true])).1 := by
    rw [run_append, ← e4]; rfl
  have hi5 : Inv cfg s5 := by rw [e5]; exact inv_at cfg bank m _
  exact ⟨h5, hi5.noLock a h5⟩

/-- C138, finding: rewards are added to the stake also of somebody who is leaving, as long as the destination of
their rewards is the stake; they stay bonded with that reward when the time has passed. -/
theorem C138_reward_keeps :
    ∃ wait : List Op,
      let s := (run ⟨2, 32, false⟩ (genesis exBank 10) [.newEra, .bond 1 2 500 .staked true, .unbond 2 500]).1
      let s' := (run ⟨2, 32, false⟩ s (wait ++ [.withdraw 2 true])).1
      (∀ op ∈ wait, op = .newEra ∨ op = .payout 1 30) ∧ s'.era = some 2 ∧
      s'.bonded.get 1 = some 2 ∧ s'.ledgers.get 2 = some ⟨1, 30, 30, []⟩ := by
  refine ⟨[.newEra, .payout 1 30, .newEra], ?_, by decide +kernel⟩
  intro op h
  simp only [List.mem_cons, List.not_mem_nil, or_false] at h
  rcases h with rfl | rfl | rfl
  · exact Or.inl rfl
  · exact Or.inr rfl
  · exact Or.inl rfl

/-- The history of the next example satisfies the condition on what others do. -/
example : Leaving 1 (run ⟨2, 32, false⟩
    (run ⟨2, 32, false⟩ (genesis exBank 10) [.newEra, .bond 1 2 500 .stash true, .unbond 2 500]).1
    [.newEra, .slash 1 100, .payout 1 30, .unbond 3 5, .newEra]).2 := by
  intro e he
  simp only [run, List.mem_cons, List.not_mem_nil, or_false] at he
  rcases he with rfl | rfl | rfl | rfl | rfl
  · exact Or.inl (fun h => h)
  · exact Or.inr (Or.inl ⟨100, rfl⟩)
  · exact Or.inr (Or.inr (Or.inr (Or.inl ⟨30, .stash, rfl, by decide +kernel, by decide⟩)))
  · refine Or.inl ?_
    show ¬ (_ = some 3)
    decide +kernel
  · exact Or.inl (fun h => h)

/-- Account 1 leaves, although it is slashed and somebody else tries to unbond; one era too early it is still
bonded. With room for one chunk only it first waits for that. -/
example :
    let s := (run ⟨2, 32, false⟩ (genesis exBank 10) [.newEra, .bond 1 2 500 .stash true, .unbond 2 500]).1
    let r := run ⟨2, 32, false⟩ s [.newEra, .slash 1 100, .payout 1 30, .unbond 3 5, .newEra]
    let early := run ⟨2, 32, false⟩ s [.newEra, .withdraw 2 true]
    let done := step ⟨2, 32, false⟩ r.1 (.withdraw 2 true)
    let t := run ⟨2, 1, false⟩ (genesis exBank 10) [.newEra, .bond 1 2 500 .stash true, .unbond 2 100, .unbond 2 400,
      .newEra, .newEra, .withdraw 2 true, .unbond 2 400, .newEra, .newEra, .withdraw 2 true]
    s.closed = true ∧ s.era = some 0 ∧ r.1.closed = true ∧ r.1.era = some 2 ∧ r.1.bonded.get 1 = some 2 ∧
    s.locks.get 1 = some 500 ∧ early.1.bonded.get 1 = some 2 ∧ early.1.locks.get 1 = some 500 ∧
    done.1.bonded.get 1 = none ∧ done.1.locks.get 1 = none ∧ done.1.bank.free 1 = 930 ∧
    (t.2.map (fun e => e.2.2))[3]? = some (.failed .noMoreChunks) ∧
    t.1.bonded.get 1 = none ∧ t.1.locks.get 1 = none := by
  decide +kernel

end Verif.Ledger
