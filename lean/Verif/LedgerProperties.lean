import Verif.LedgerProofs

/-
Properties C35-C38: bonding, unbonding, withdrawing, slashing of a ledger.
-/

namespace Verif.Ledger

/-! ### C38 -/

/-- C38. At all times every bonded stash has a controller whose ledger names that stash, every ledger
belongs to a stash bonded to its controller, and no two stashes share a controller. -/
theorem C38_pairing (cfg : Cfg) (bank : Bank) (m : Balance) (ops : List Op) :
    let s := (run cfg (genesis bank m) ops).1
    (∀ a c, s.bonded.get a = some c ↔ ∃ l, s.ledgers.get c = some l ∧ l.stash = a) ∧
    (∀ a b c, s.bonded.get a = some c → s.bonded.get b = some c → a = b) := by
  intro s
  have h := run_inv cfg ops _ (genesis_inv cfg bank m)
  refine ⟨fun a c => ⟨h.forward a c, ?_⟩, fun a b c ha hb => h.inj ha hb⟩
  rintro ⟨l, h1, rfl⟩
  exact h.back c l h1

/-! ### C35 -/

/-- C35. At all times the total of every ledger is its active stake plus all unlocking chunks, and the
lock on the stash equals the total, except possibly when the total is zero (see
`C35_stale_lock`); accounts that are not bonded have no staking lock. -/
theorem C35_ledger_balances_partial (cfg : Cfg) (bank : Bank) (m : Balance) (ops : List Op) :
    let s := (run cfg (genesis bank m) ops).1
    (∀ c l, s.ledgers.get c = some l → l.total = l.active + (l.unlocking.map Chunk.value).sum ∧
      (l.total ≠ 0 ∨ cfg.zeroLock = true → s.locks.get l.stash = some l.total)) ∧
    (∀ a, s.bonded.get a = none → s.locks.get a = none) := by
  intro s
  have h := run_inv cfg ops _ (genesis_inv cfg bank m)
  refine ⟨fun c l hl => ⟨h.balanced c l hl, ?_⟩, h.noLock⟩
  intro ho
  rcases h.lock c l hl with h1 | ⟨h1, h2⟩
  · exact h1
  · rcases ho with ho | ho
    · exact absurd h1 ho
    · rw [h2] at ho; cases ho

/-! ### C36 -/

/-- What the stash `a` has withdrawn according to the events of a history. -/
def withdrawnBy (a : AccId) : List (State × Op × Out) → Balance
  | [] => 0
  | (_, _, .withdrawn b v) :: tr => (if b = a then v else 0) + withdrawnBy a tr
  | _ :: tr => withdrawnBy a tr

/-- What the stash `a` has unbonded, according to the events of a history, at least the bonding duration
before era `e`. -/
def unbondedBefore (cfg : Cfg) (a : AccId) (e : Nat) : List (State × Op × Out) → Balance
  | [] => 0
  | (s, _, .unbonded b v) :: tr =>
    (if b = a ∧ s.era.getD 0 + cfg.bondingDuration ≤ e then v else 0) + unbondedBefore cfg a e tr
  | _ :: tr => unbondedBefore cfg a e tr

theorem withdrawnBy_cons (a : AccId) (s : State) (op : Op) (o : Out) (tr : List (State × Op × Out)) :
    withdrawnBy a ((s, op, o) :: tr) = wd a o + withdrawnBy a tr := by
  cases o <;> simp [withdrawnBy, wd]

theorem unbondedBefore_cons (cfg : Cfg) (a : AccId) (e : Nat) (s : State) (op : Op) (o : Out)
    (tr : List (State × Op × Out)) :
    unbondedBefore cfg a e ((s, op, o) :: tr) = ub cfg a e s o + unbondedBefore cfg a e tr := by
  cases o <;> simp [unbondedBefore, ub]

theorem setLock_era (cfg : Cfg) (s : State) (a : AccId) (v : Balance) : (setLock cfg s a v).era = s.era :=
  (setLock_fields cfg s a v).2.2.2.1

theorem killStash_era {s s1 : State} {a : AccId} {k : Bool} (h : killStash s a k = .ok s1) : s1.era = s.era := by
  obtain ⟨c, _, rfl⟩ := killStash_ok h
  rfl

/-- Only `newEra` changes the era. -/
theorem step_era_eq (cfg : Cfg) (s : State) (op : Op) : op = .newEra ∨ (step cfg s op).1.era = s.era := by
  rcases step_cases cfg s op with ⟨r, hb, hs⟩ | ⟨e, hb, hs⟩
  rotate_left
  · right; rw [hs]
  rw [hs]
  cases op with
  | newEra => exact Or.inl rfl
  | bond a c v p k =>
    right
    simp only [body, bond] at hb
    repeat' split at hb
    all_goals first | cases hb; done | skip
    cases hb
    exact setLock_era _ _ _ _
  | setMinBond k v =>
    right
    simp only [body, setMinBond] at hb
    repeat' split at hb
    all_goals cases hb
    rfl
  | bondExtra a v =>
    right
    simp only [body, bondExtra] at hb
    repeat' split at hb
    all_goals cases hb
    · rfl
    · exact setLock_era _ _ _ _
  | unbond c v =>
    right
    simp only [body] at hb
    unfold unbond at hb
    split at hb
    · cases hb
    split at hb
    · cases hb
    split at hb
    · cases hb
    simp only at hb
    split at hb
    · cases hb; rfl
    · cases hb; exact setLock_era _ _ _ _
  | withdraw c k =>
    right
    simp only [body] at hb
    unfold withdraw at hb
    split at hb
    · cases hb
    split at hb
    · cases hb
    simp only at hb
    split at hb
    · split at hb
      · cases hb
      rename_i s1 hk
      cases hb
      exact killStash_era (s1 := s1) hk
    · cases hb; exact setLock_era _ _ _ _
  | validate c p =>
    right
    simp only [body, validate] at hb
    repeat' split at hb
    all_goals cases hb
    rfl
  | chill c =>
    right
    simp only [body, chill] at hb
    repeat' split at hb
    all_goals cases hb
    rfl
  | setPayee c d =>
    right
    simp only [body, setPayee] at hb
    repeat' split at hb
    all_goals cases hb
    rfl
  | setController a c =>
    right
    simp only [body, setController] at hb
    repeat' split at hb
    all_goals cases hb
    all_goals rfl
  | forceUnstake k a q =>
    right
    simp only [body, forceUnstake] at hb
    split at hb
    · cases hb
    split at hb
    · cases hb
    rename_i s1 hk
    cases hb
    exact killStash_era (s1 := s1) hk
  | rebond c v =>
    right
    simp only [body, rebond] at hb
    repeat' split at hb
    all_goals cases hb
    exact setLock_era _ _ _ _
  | reap a q =>
    right
    simp only [body, reap] at hb
    split at hb
    · cases hb
    split at hb
    · cases hb
    rename_i s1 hk
    cases hb
    exact killStash_era (s1 := s1) hk
  | burn c v =>
    right
    simp only [body, burn] at hb
    repeat' split at hb
    all_goals cases hb
    exact setLock_era _ _ _ _
  | slash a v =>
    right
    simp only [body] at hb
    cases hb
    unfold doSlash
    split
    · rfl
    split
    · rfl
    simp only
    split
    · rfl
    · exact setLock_era _ _ _ _
  | payout a v =>
    right
    simp only [body] at hb
    cases hb
    simp only
    unfold payout
    split
    · split <;> rfl
    · rfl
    · split
      · rfl
      split
      · rfl
      · exact setLock_era _ _ _ _
    · rfl
  | kick a =>
    right
    simp only [body] at hb
    cases hb
    rfl
  | external b o k =>
    right
    simp only [body] at hb
    cases hb
    rfl

/-- Eras only advance. -/
theorem step_era (cfg : Cfg) (s : State) (op : Op) : s.era.getD 0 ≤ (step cfg s op).1.era.getD 0 := by
  have key := step_era_eq cfg s op
  rcases key with rfl | h
  · show _ ≤ (some _).getD 0
    cases s.era with
    | none => exact Nat.le_refl _
    | some e => exact Nat.le_succ _
  · rw [h]; exact Nat.le_refl _

theorem run_pending (cfg : Cfg) (a : AccId) (ops : List Op) : ∀ s, Inv cfg s →
    ∀ e, (run cfg s ops).1.era.getD 0 ≤ e →
    withdrawnBy a (run cfg s ops).2 + pending (run cfg s ops).1 a e ≤
      pending s a e + unbondedBefore cfg a e (run cfg s ops).2 ∧ s.era.getD 0 ≤ (run cfg s ops).1.era.getD 0 := by
  induction ops with
  | nil => intro s _ e _; simp [run, withdrawnBy, unbondedBefore]
  | cons op ops ih =>
    intro s h e he
    have hc := step_change cfg s op
    obtain ⟨h1, h2⟩ := ih _ (h.change hc) e he
    have h3 := step_era cfg s op
    have he' : (run cfg (step cfg s op).1 ops).1.era.getD 0 ≤ e := he
    have h4 := hc.pending h a e (by omega)
    simp only [run]
    rw [withdrawnBy_cons, unbondedBefore_cons]
    exact ⟨by omega, Nat.le_trans h3 h2⟩

/-- C36. At any time a stash has withdrawn at most what it has unbonded at least the bonding duration
ago, for every history of calls, slashes, re-bondings and era changes. -/
theorem C36_waits_bonding_duration (cfg : Cfg) (bank : Bank) (m : Balance) (ops : List Op) (a : AccId) :
    withdrawnBy a (run cfg (genesis bank m) ops).2 ≤
      unbondedBefore cfg a ((run cfg (genesis bank m) ops).1.era.getD 0) (run cfg (genesis bank m) ops).2 := by
  have h := (run_pending cfg a ops _ (genesis_inv cfg bank m) _ (Nat.le_refl _)).1
  have h0 : ∀ e, pending (genesis bank m) a e = 0 := fun e => pending_none rfl e
  rw [h0] at h
  omega

/-- C36. A withdrawal removes exactly the chunks whose era has come, leaves the active stake and the
other chunks, and lowers total and lock by the same amount; or, if nothing but at most the existential
deposit is left, it removes the ledger and the lock. No balance changes. -/
theorem C36_withdraw (cfg : Cfg) (bank : Bank) (m : Balance) (ops : List Op) (c : AccId) (k : Bool) (l : Ledger)
    (e : Nat) (hl : (run cfg (genesis bank m) ops).1.ledgers.get c = some l)
    (he : (run cfg (genesis bank m) ops).1.era = some e)
    (hok : ∀ err, (step cfg (run cfg (genesis bank m) ops).1 (.withdraw c k)).2 ≠ .failed err) :
    let s := (run cfg (genesis bank m) ops).1
    let s' := (step cfg s (.withdraw c k)).1
    let rest := l.unlocking.filter fun ch => decide (e < ch.era)
    ((s'.ledgers.get c = some ⟨l.stash, l.active + (rest.map Chunk.value).sum, l.active, rest⟩ ∧
        (rest ≠ [] ∨ s.bank.ed < l.active)) ∨
      (s'.ledgers.get c = none ∧ s'.bonded.get l.stash = none ∧ s'.locks.get l.stash = none ∧ rest = [] ∧
        l.active ≤ s.bank.ed)) ∧
    (∀ c', c' ≠ c → s'.ledgers.get c' = s.ledgers.get c') ∧ s'.bank.accts = s.bank.accts := by
  intro s s' rest
  have h := run_inv cfg ops _ (genesis_inv cfg bank m)
  have hb := h.back c l hl
  rcases step_cases cfg s (.withdraw c k) with ⟨r, hr, hs⟩ | ⟨err, hr, hs⟩
  rotate_left
  · exact absurd (by rw [show step cfg (run cfg (genesis bank m) ops).1 (.withdraw c k) = _ from hs]) (hok err)
  have e' : s' = r.1 := congrArg Prod.fst hs
  rw [e']
  simp only [body, withdraw] at hr
  split at hr
  · cases hr
  rw [show s.ledgers.get c = some l from hl] at hr
  simp only [show s.era = some e from he, consolidateAt] at hr
  have hbal := (consolidate_balanced (h.balanced c l hl) e).1
  split at hr
  · rename_i hd
    split at hr
    · cases hr
    rename_i s1 hk
    cases hr
    obtain ⟨c', hc', rfl⟩ := killStash_ok hk
    rw [show s.bonded.get l.stash = some c from hb] at hc'
    cases hc'
    refine ⟨Or.inr ⟨FMap.get_erase_self _ _, FMap.get_erase_self _ _, FMap.get_erase_self _ _, ?_, hd.2⟩,
      fun c' hc' => FMap.get_erase_ne _ hc', rfl⟩
    have := hd.1
    rw [List.isEmpty_iff] at this
    exact this
  · rename_i hd
    cases hr
    refine ⟨Or.inl ⟨?_, ?_⟩, ?_, ?_⟩
    · show FMap.get (FMap.insert _ c _) c = _
      rw [FMap.get_insert_self]
      have : (consolidate l e).total = (consolidate l e).active + chunkSum (consolidate l e).unlocking := hbal
      show some (consolidate l e) = _
      congr 1
      rw [show consolidate l e = ⟨l.stash, (consolidate l e).total, l.active, rest⟩ from rfl, this]
      rfl
    · by_cases hr : rest = []
      · right
        have : ¬ l.active ≤ s.bank.ed := fun hle => hd ⟨by
          show rest.isEmpty = true
          rw [hr]; rfl, hle⟩
        omega
      · exact Or.inl hr
    · intro c' hc'
      show FMap.get (FMap.insert _ c _) c' = _
      rw [FMap.get_insert_ne _ _ hc', (setLock_fields cfg s _ _).2.1]
    · show (setLock cfg s _ _).bank.accts = _
      unfold setLock
      split <;> rfl

/-- C36. Re-bonding moves the requested amount (at most what is unlocking) from the unlocking chunks to
the active stake; total and lock stay. -/
theorem C36_rebond (cfg : Cfg) (bank : Bank) (m : Balance) (ops : List Op) (c : AccId) (v : Balance) (l : Ledger)
    (hl : (run cfg (genesis bank m) ops).1.ledgers.get c = some l)
    (hok : (step cfg (run cfg (genesis bank m) ops).1 (.rebond c v)).2 = .done) :
    let s := (run cfg (genesis bank m) ops).1
    let s' := (step cfg s (.rebond c v)).1
    ∃ l', s'.ledgers.get c = some l' ∧ l'.total = l.total ∧
      l'.active = l.active + min v ((l.unlocking.map Chunk.value).sum) ∧
      (l'.unlocking.map Chunk.value).sum = (l.unlocking.map Chunk.value).sum - v ∧
      (∀ c', c' ≠ c → s'.ledgers.get c' = s.ledgers.get c') ∧ s'.bank.accts = s.bank.accts := by
  intro s s'
  have h := run_inv cfg ops _ (genesis_inv cfg bank m)
  rcases step_cases cfg s (.rebond c v) with ⟨r, hr, hs⟩ | ⟨err, hr, hs⟩
  rotate_left
  · rw [show step cfg (run cfg (genesis bank m) ops).1 (.rebond c v) = _ from hs] at hok; cases hok
  have e' : s' = r.1 := congrArg Prod.fst hs
  rw [e']
  simp only [body, rebond] at hr
  split at hr
  · cases hr
  rw [show s.ledgers.get c = some l from hl] at hr
  simp only at hr
  split at hr
  · cases hr
  split at hr
  · cases hr
  cases hr
  have hbal : l.total = l.active + chunkSum l.unlocking := h.balanced c l hl
  obtain ⟨h1, h2, h3, _⟩ := rebond_spec (h.balanced c l hl) v
  refine ⟨rebondLedger l v, FMap.get_insert_self _ _ _, h2, h3, ?_, ?_, ?_⟩
  · have h1' : (rebondLedger l v).total = (rebondLedger l v).active + chunkSum (rebondLedger l v).unlocking := h1
    show chunkSum (rebondLedger l v).unlocking = chunkSum l.unlocking - v
    omega
  · intro c' hc'
    show FMap.get (FMap.insert _ c _) c' = _
    rw [FMap.get_insert_ne _ _ hc', (setLock_fields cfg s _ _).2.1]
  · show (setLock cfg s _ _).bank.accts = _
    unfold setLock
    split <;> rfl

/-- C36. Unbonding moves the amount (at most the active stake; all of it if less than the minimum bond
would remain) from the active stake into a new chunk due after the bonding duration. -/
theorem C36_unbond (cfg : Cfg) (s : State) (c : AccId) (v : Balance) (l : Ledger) (hl : s.ledgers.get c = some l)
    (a : AccId) (x : Balance) (hok : (step cfg s (.unbond c v)).2 = .unbonded a x) :
    a = l.stash ∧ min v l.active ≤ x ∧ x ≤ l.active ∧
    x = (if l.active - min v l.active < s.minBond then l.active else min v l.active) ∧
    (step cfg s (.unbond c v)).1.ledgers.get c =
      some ⟨l.stash, l.total, l.active - x, l.unlocking ++ [⟨x, s.era.getD 0 + cfg.bondingDuration⟩]⟩ := by
  rcases step_cases cfg s (.unbond c v) with ⟨r, hr, hs⟩ | ⟨err, hr, hs⟩
  rotate_left
  · rw [hs] at hok; cases hok
  rw [hs] at hok ⊢
  simp only [body, unbond] at hr
  split at hr
  · cases hr
  rw [hl] at hr
  simp only at hr
  split at hr
  · cases hr
  by_cases h0 : min v l.active = 0
  · rw [if_pos h0] at hr
    cases hr
    cases hok
  · rw [if_neg h0] at hr
    cases hr
    simp only [Out.unbonded.injEq] at hok
    obtain ⟨rfl, rfl⟩ := hok
    refine ⟨rfl, ?_, ?_, ?_, ?_⟩
    · split <;> omega
    · split <;> omega
    · split <;> omega
    · show FMap.get (FMap.insert _ c _) c = _
      rw [FMap.get_insert_self]
      congr 2
      split <;> omega

/-! ### C37 -/

/-- C37. Slashing a balanced ledger: the amount taken is at least the smaller of value and total, at
most the value plus the existential deposit; ledger total decreases by exactly that amount and the
ledger stays balanced; nothing is taken from the unlocking chunks unless the active stake is used up;
chunks are used up from the first (closest to unlocking) on. -/
theorem C37_slash (l : Ledger) (value minimum : Balance)
    (hb : l.total = l.active + (l.unlocking.map Chunk.value).sum) (hpos : ∀ c ∈ l.unlocking, 0 < c.value) :
    let r := slashLedger l value minimum
    r.1.stash = l.stash ∧
    r.1.total = r.1.active + (r.1.unlocking.map Chunk.value).sum ∧ r.1.total + r.2 = l.total ∧
    min value l.total ≤ r.2 ∧ r.2 ≤ value + minimum ∧
    (r.2 ≠ min value l.total → r.1.active = 0 ∨ r.1.active = l.active) ∧
    (value ≤ l.active → r.1.unlocking = l.unlocking) ∧ (l.active ≤ value → r.1.active = 0) ∧
    (∃ used rest, l.unlocking = used ++ rest ∧ (r.1.unlocking = rest ∨
      ∃ c cs x, rest = c :: cs ∧ r.1.unlocking = { c with value := x } :: cs)) := by
  intro r
  obtain ⟨h1, h2, h3, h4, h5, h6, _⟩ := slash_spec (l := l) hb value minimum
  have hle : l.active ≤ l.total := by rw [hb]; exact Nat.le_add_right _ _
  obtain ⟨d, g1, g2, g3, g4, g5, g6, g7, g8, g9⟩ := slashPart_spec minimum l.total l.active value hle
  have hact : r.1.active = (slashPart minimum l.total l.active value).2.1 := rfl
  have hunl : r.1.unlocking = (slashChunks minimum l.unlocking (slashPart minimum l.total l.active value).1
    (slashPart minimum l.total l.active value).2.2).2 := rfl
  have hlow : value ≤ l.active → r.1.unlocking = l.unlocking := by
    intro hv
    rw [hunl, g3, show value - l.active = 0 by omega, slashChunks_zero minimum _ hpos]
  refine ⟨h6, h1, h2, h3, h4, ?_, hlow, ?_, ?_⟩
  · intro hne
    rw [hact]
    rcases g9 with g9 | g9
    · by_cases hv : value ≤ l.active
      · exfalso
        apply hne
        have e1 := hlow hv
        have h1' : r.1.total = r.1.active + (r.1.unlocking.map Chunk.value).sum := h1
        have h2' : r.1.total + r.2 = l.total := h2
        rw [e1] at h1'
        rw [hact] at h1'
        omega
      · left; omega
    · left; omega
  · intro hv
    rw [hact]
    have := g7 hv
    omega
  · exact slashChunks_order minimum l.unlocking _ _

theorem slashChunks_no_dust (minimum : Balance) : ∀ (cs : List Chunk) (total value : Balance),
    ∀ c ∈ (slashChunks minimum cs total value).2, c ∈ cs ∨ minimum < c.value := by
  intro cs
  induction cs with
  | nil => intro total value c h; cases h
  | cons x cs ih =>
    intro total value c h
    unfold slashChunks at h
    simp only at h
    split at h
    · rcases ih _ _ c h with h | h
      · exact .inl (List.mem_cons_of_mem _ h)
      · exact .inr h
    · rename_i hne
      rw [List.mem_cons] at h
      rcases h with rfl | h
      · unfold slashPart at hne ⊢
        simp only at hne ⊢
        split
        · left; simp
        · split
          · rename_i h1 h2; simp only [h1, h2, if_true, if_false] at hne; exact absurd trivial hne
          · right; simp only; omega
      · exact .inl (List.mem_cons_of_mem _ h)

/-- C37. No dust is left: a slash leaves the active stake reduced by its value, or nothing if no more than the
existential deposit would be left, and of a chunk it touches nothing or more than the existential deposit. -/
theorem C37_no_dust (l : Ledger) (value minimum : Balance) (hv : 0 < value) :
    let r := slashLedger l value minimum
    r.1.active = (if l.active - value ≤ minimum then 0 else l.active - value) ∧
    ∀ c ∈ r.1.unlocking, c ∈ l.unlocking ∨ minimum < c.value := by
  intro r
  refine ⟨?_, slashChunks_no_dust minimum l.unlocking _ _⟩
  change (slashPart minimum l.total l.active value).2.1 = _
  unfold slashPart
  simp only
  split
  · split <;> simp only <;> omega
  · split
    · rw [if_pos (by omega)]
    · rw [if_neg (by omega)]; simp only; omega

theorem slash_taken (b : Bank) (a : AccId) (v : Balance) :
    (b.slash a v).2 ≤ v ∧
    (b.ed ≤ b.free a - (b.slash a v).2 ∨ b.reserved a ≠ 0 → (b.slash a v).1.free a + (b.slash a v).2 = b.free a) ∧
    ∀ x, x ≠ a → (b.slash a v).1.free x = b.free x ∧ (b.slash a v).1.reserved x = b.reserved x := by
  unfold Bank.slash
  split
  · exact ⟨Nat.zero_le _, fun _ => rfl, fun _ _ => ⟨rfl, rfl⟩⟩
  · simp only
    have hle : (if b.canDie a = true then min v (b.free a) else min v (b.free a - b.ed)) ≤ v ∧
        (if b.canDie a = true then min v (b.free a) else min v (b.free a - b.ed)) ≤ b.free a := by
      split <;> omega
    generalize (if b.canDie a = true then min v (b.free a) else min v (b.free a - b.ed)) = t at hle
    refine ⟨hle.1, ?_, ?_⟩
    · intro hh
      unfold Bank.put
      rw [if_neg]
      · show (Bank.acct _ a).free + t = _
        simp only [Bank.acct, FMap.get_insert_self, Option.getD_some]
        omega
      · simp only
        intro hx
        rcases hh with hh | hh
        · omega
        · exact hh hx.2
    · intro x hx
      unfold Bank.put
      split
      · simp only [Bank.free, Bank.reserved, Bank.acct, FMap.get_erase_ne _ hx]; exact ⟨trivial, trivial⟩
      · simp only [Bank.free, Bank.reserved, Bank.acct, FMap.get_insert_ne _ _ hx]; exact ⟨trivial, trivial⟩

/-- C37. Slashing a bonded stash at any time: the ledger changes as in `C37_slash`, all other ledgers stay,
nobody else's balance changes, and the stash loses what is announced as taken, which is at most the
decrease of the ledger. -/
theorem C37_slash_step (cfg : Cfg) (bank : Bank) (m : Balance) (ops : List Op) (a c : AccId) (v : Balance)
    (l : Ledger) (hb : (run cfg (genesis bank m) ops).1.bonded.get a = some c)
    (hl : (run cfg (genesis bank m) ops).1.ledgers.get c = some l) :
    let s := (run cfg (genesis bank m) ops).1
    let s' := (step cfg s (.slash a v)).1
    ∃ l' cut taken, s'.ledgers.get c = some l' ∧ l'.stash = a ∧ l'.total + cut = l.total ∧
      l'.total = l'.active + (l'.unlocking.map Chunk.value).sum ∧
      min v l.total ≤ cut ∧ cut ≤ v + s.bank.ed ∧
      (v ≤ l.active → l'.unlocking = l.unlocking) ∧ (l.active ≤ v → l'.active = 0) ∧
      (cut ≠ 0 → (step cfg s (.slash a v)).2 = .slashed a cut taken) ∧ taken ≤ cut ∧
      (s.bank.ed ≤ s.bank.free a - taken ∨ s.bank.reserved a ≠ 0 → s'.bank.free a + taken = s.bank.free a) ∧
      (∀ c', c' ≠ c → s'.ledgers.get c' = s.ledgers.get c') ∧
      (∀ b, b ≠ a → s'.bank.free b = s.bank.free b ∧ s'.bank.reserved b = s.bank.reserved b) := by
  intro s s'
  have h := run_inv cfg ops _ (genesis_inv cfg bank m)
  have hp := run_pos cfg ops _ (fun c l h => by simp [genesis] at h : AllPos (genesis bank m)) c l hl
  have hst : l.stash = a := by
    obtain ⟨l', g1, g2⟩ := h.forward a c hb
    rw [hl] at g1
    cases g1
    exact g2
  obtain ⟨h1, h2, h3, h4, h5, _, h7, h8, _⟩ := C37_slash l v s.bank.ed (h.balanced c l hl) hp
  have hs : step cfg s (.slash a v) = doSlash cfg s a v := rfl
  have hd : doSlash cfg s a v = if (slashLedger l v s.bank.ed).2 = 0 then (s, Out.done) else
      (updateLedger cfg { s with bank := (s.bank.slash a (slashLedger l v s.bank.ed).2).1 } c (slashLedger l v s.bank.ed).1,
        .slashed a (slashLedger l v s.bank.ed).2 (s.bank.slash a (slashLedger l v s.bank.ed).2).2) := by
    unfold doSlash
    rw [show s.bonded.get a = some c from hb]
    simp only
    rw [show s.ledgers.get c = some l from hl]
  show ∃ l' cut taken, (step cfg s (.slash a v)).1.ledgers.get c = some l' ∧ _
  have e' : s' = (step cfg s (.slash a v)).1 := rfl
  rw [e', hs, hd]
  by_cases h0 : (slashLedger l v s.bank.ed).2 = 0
  · rw [if_pos h0]
    refine ⟨l, 0, 0, hl, hst, rfl, h.balanced c l hl, ?_, Nat.zero_le _, fun _ => rfl, ?_, fun hn => absurd rfl hn,
      Nat.le_refl _, fun _ => rfl, fun _ _ => rfl, fun _ _ => ⟨rfl, rfl⟩⟩
    · rw [h0] at h4; exact h4
    · intro hv
      have h8' := h8 hv
      have hbal : l.total = l.active + chunkSum l.unlocking := h.balanced c l hl
      rw [h0] at h4
      omega
  · rw [if_neg h0]
    have hbk : ∀ (X : State) (L : Ledger), (updateLedger cfg X c L).bank.accts = X.bank.accts := by
      intro X L
      show (setLock cfg X _ _).bank.accts = _
      unfold setLock
      split <;> rfl
    have hfree : ∀ (X Y : Bank) b, X.accts = Y.accts → X.free b = Y.free b ∧ X.reserved b = Y.reserved b := by
      intro X Y b hxy
      unfold Bank.free Bank.reserved Bank.acct
      rw [hxy]
      exact ⟨rfl, rfl⟩
    refine ⟨(slashLedger l v s.bank.ed).1, (slashLedger l v s.bank.ed).2,
      (s.bank.slash a (slashLedger l v s.bank.ed).2).2, FMap.get_insert_self _ _ _, by rw [h1, hst], h3, h2, h4, h5, h7, h8,
      fun _ => rfl, (slash_taken s.bank a _).1, ?_, ?_, ?_⟩
    · intro hh
      rw [(hfree _ _ a (hbk _ _)).1]
      exact (slash_taken s.bank a _).2.1 hh
    · intro c' hc'
      show FMap.get (FMap.insert _ c _) c' = _
      rw [FMap.get_insert_ne _ _ hc', (setLock_fields cfg _ _ _).2.1]
    · intro b hb'
      rw [(hfree _ _ b (hbk _ _)).1, (hfree _ _ b (hbk _ _)).2]
      exact (slash_taken s.bank a _).2.2 b hb'

/-! ### Examples and findings -/

def exCfg : Cfg := ⟨672, 32, false⟩

def exBank : Bank :=
  { ed := 1, accts := (∅ : FMap AccId Acct).insert 1 ⟨1000, 0⟩, frozen := fun _ => 0, pinned := fun _ => true, issuance := 1000 }

/-- Account 1 bonds 500 with controller 2, unbonds 200 in era 0, 100 in era 1, re-bonds 50 and withdraws
in era 672. -/
def exOps : List Op :=
  [.bond 1 2 500 .staked true, .newEra, .unbond 2 200, .newEra, .unbond 2 100, .rebond 2 50] ++
    List.replicate 671 .newEra

example :
    let s := (run exCfg (genesis exBank 10) exOps).1
    s.ledgers.get 2 = some ⟨1, 500, 250, [⟨200, 672⟩, ⟨50, 673⟩]⟩ ∧ s.locks.get 1 = some 500 ∧ s.era = some 672 ∧
    (step exCfg s (.withdraw 2 true)).2 = .withdrawn 1 200 ∧
    (step exCfg s (.withdraw 2 true)).1.ledgers.get 2 = some ⟨1, 300, 250, [⟨50, 673⟩]⟩ ∧
    (step exCfg s (.withdraw 2 true)).1.locks.get 1 = some 300 := by
  decide +kernel

example : slashLedger ⟨1, 60, 10, [⟨20, 5⟩, ⟨30, 6⟩]⟩ 28 2 = (⟨1, 30, 0, [⟨30, 6⟩]⟩, 30) := by decide

/-- C35, finding: with the semantics of `set_lock` in polkadot-v1.1.0 a stash that is slashed completely
keeps its old lock: money that arrives later is locked although nothing is at stake. -/
theorem C35_stale_lock :
    ∃ ops : List Op, let s := (run exCfg (genesis exBank 10) ops).1
      s.ledgers.get 2 = some ⟨1, 0, 0, []⟩ ∧ s.locks.get 1 = some 500 ∧ s.bank.frozen 1 = 500 ∧ s.bank.free 1 = 500 := by
  refine ⟨[.bond 1 2 500 .staked true, .slash 1 500], ?_⟩
  decide +kernel

/-- C36, finding: anybody can end the bond of a stash whose whole balance is exactly the existential
deposit, at once and against the will of its owner; the code compares with `==` where a stash below the
existential deposit is meant. -/
theorem C36_reap_at_once :
    ∃ bank : Bank, let s := (run exCfg (genesis bank 10) [.bond 1 2 10 .staked true]).1
      s.ledgers.get 2 = some ⟨1, 10, 10, []⟩ ∧ s.locks.get 1 = some 10 ∧
      (step exCfg s (.reap 1 true)).2 = .done ∧ (step exCfg s (.reap 1 true)).1.locks.get 1 = none ∧
      (step exCfg s (.reap 1 true)).1.ledgers.get 2 = none := by
  refine ⟨{ ed := 10, accts := (∅ : FMap AccId Acct).insert 1 ⟨10, 0⟩, frozen := fun _ => 0, pinned := fun _ => true, issuance := 10 }, ?_⟩
  decide +kernel

/-- C37, finding: the ledger may lose more than the account: here dust is cut from the ledger and money
reserved elsewhere is missing from the free balance. -/
theorem C37_cut_exceeds_taken :
    ∃ bank : Bank, let s := (run exCfg (genesis bank 10)
        [.bond 1 2 500 .staked true, .external { bank with accts := (∅ : FMap AccId Acct).insert 1 ⟨200, 300⟩ } (fun _ => 0) true]).1
      (step exCfg s (.slash 1 400)).2 = .slashed 1 400 199 := by
  refine ⟨exBank, ?_⟩
  decide +kernel

end Verif.Ledger
