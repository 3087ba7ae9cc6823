import Verif.Ledger

/-
Lemmas about ledgers and about the calls that change them.
-/

namespace Verif.Ledger

/-- Sum of the unlocking chunks. -/
def chunkSum (cs : List Chunk) : Balance := (cs.map Chunk.value).sum

@[simp] theorem chunkSum_nil : chunkSum [] = 0 := rfl

@[simp] theorem chunkSum_cons (c : Chunk) (cs : List Chunk) : chunkSum (c :: cs) = c.value + chunkSum cs := by
  simp [chunkSum]

@[simp] theorem chunkSum_append (a b : List Chunk) : chunkSum (a ++ b) = chunkSum a + chunkSum b := by
  simp [chunkSum]

@[simp] theorem chunkSum_reverse (a : List Chunk) : chunkSum a.reverse = chunkSum a := by
  induction a with
  | nil => rfl
  | cons c cs ih => simp [ih]; omega

/-- The chunks due at an era. -/
def due (e : Nat) (cs : List Chunk) : Balance := chunkSum (cs.filter fun c => decide (c.era ≤ e))

/-- The ledger balances. -/
def Ledger.Balanced (l : Ledger) : Prop := l.total = l.active + chunkSum l.unlocking

theorem chunkSum_split (e : Nat) (cs : List Chunk) :
    chunkSum cs = due e cs + chunkSum (cs.filter fun c => decide (e < c.era)) := by
  induction cs with
  | nil => rfl
  | cons c cs ih =>
    unfold due at *
    by_cases h : c.era ≤ e
    · rw [List.filter_cons_of_pos (by simpa using h), List.filter_cons_of_neg (by simp; omega)]
      simp only [chunkSum_cons]; omega
    · rw [List.filter_cons_of_neg (by simpa using h), List.filter_cons_of_pos (by simp; omega)]
      simp only [chunkSum_cons]; omega

theorem due_le (e : Nat) (cs : List Chunk) : due e cs ≤ chunkSum cs := by
  have := chunkSum_split e cs
  omega

theorem matured_eq (e : Nat) (cs : List Chunk) : ∀ t, matured e cs t = t - due e cs := by
  induction cs with
  | nil => intro t; rfl
  | cons c cs ih =>
    intro t
    unfold matured
    rw [ih]
    unfold due
    by_cases h : e < c.era
    · rw [if_pos h, List.filter_cons_of_neg (by simp; omega)]
    · rw [if_neg h, List.filter_cons_of_pos (by simp; omega)]
      simp only [chunkSum_cons]; omega

theorem consolidate_balanced {l : Ledger} (h : l.Balanced) (e : Nat) :
    (consolidate l e).Balanced ∧ (consolidate l e).total + due e l.unlocking = l.total := by
  unfold Ledger.Balanced at *
  have h1 := chunkSum_split e l.unlocking
  have h2 := matured_eq e l.unlocking l.total
  unfold consolidate
  simp only [h2]
  omega

theorem rebondLoop_spec (value : Balance) (cs : List Chunk) : ∀ active got, got ≤ value →
    (rebondLoop value cs active got).1 + chunkSum (rebondLoop value cs active got).2 = active + chunkSum cs ∧
    (rebondLoop value cs active got).1 = active + min (value - got) (chunkSum cs) ∧
    (∀ e, due e (rebondLoop value cs active got).2 ≤ due e cs) := by
  induction cs with
  | nil => intro active got h; simp [rebondLoop, due]
  | cons c cs ih =>
    intro active got h
    unfold rebondLoop
    have hdue : ∀ e, due e cs ≤ due e (c :: cs) := by
      intro e
      unfold due
      by_cases hc : c.era ≤ e
      · rw [List.filter_cons_of_pos (by simpa using hc)]; simp only [chunkSum_cons]; omega
      · rw [List.filter_cons_of_neg (by simpa using hc)]; exact Nat.le_refl _
    split
    · split
      · refine ⟨by simp only [chunkSum_cons]; omega, by simp only [chunkSum_cons]; omega, hdue⟩
      · obtain ⟨h1, h2, h3⟩ := ih (active + c.value) (got + c.value) (by omega)
        refine ⟨?_, ?_, fun e => Nat.le_trans (h3 e) (hdue e)⟩
        · rw [h1]; simp only [chunkSum_cons]; omega
        · rw [h2]; simp only [chunkSum_cons]; omega
    · refine ⟨by simp only [chunkSum_cons]; omega, by simp only [chunkSum_cons]; omega, ?_⟩
      intro e
      unfold due
      by_cases hc : c.era ≤ e
      · rw [List.filter_cons_of_pos (by simpa using hc), List.filter_cons_of_pos (by simpa using hc)]
        simp only [chunkSum_cons]; omega
      · rw [List.filter_cons_of_neg (by simpa using hc), List.filter_cons_of_neg (by simpa using hc)]
        exact Nat.le_refl _

theorem due_reverse (e : Nat) (cs : List Chunk) : due e cs.reverse = due e cs := by
  unfold due
  rw [List.filter_reverse, chunkSum_reverse]

theorem rebond_spec {l : Ledger} (h : l.Balanced) (value : Balance) :
    (rebondLedger l value).Balanced ∧ (rebondLedger l value).total = l.total ∧
    (rebondLedger l value).active = l.active + min value (chunkSum l.unlocking) ∧
    (∀ e, due e (rebondLedger l value).unlocking ≤ due e l.unlocking) := by
  obtain ⟨h1, h2, h3⟩ := rebondLoop_spec value l.unlocking.reverse l.active 0 (Nat.zero_le _)
  unfold Ledger.Balanced at *
  simp only [rebondLedger, chunkSum_reverse, Nat.sub_zero] at *
  refine ⟨by omega, trivial, h2, ?_⟩
  intro e
  have := h3 e
  rw [due_reverse] at this
  rw [due_reverse]
  exact this

/-- Effect of slashing one part. -/
theorem slashPart_spec (m total target value : Balance) (h : target ≤ total) :
    ∃ d, (slashPart m total target value).1 + d = total ∧ (slashPart m total target value).2.1 + d = target ∧
      (slashPart m total target value).2.2 = value - target ∧ min value target ≤ d ∧ d ≤ target ∧ d ≤ value + m ∧
      (target ≤ value → d = target) ∧ (value = 0 → d = 0) ∧ (d = min value target ∨ d = target) := by
  unfold slashPart
  simp only
  split
  · rename_i h0
    refine ⟨0, rfl, rfl, ?_, ?_, Nat.zero_le _, Nat.zero_le _, ?_, fun _ => rfl, Or.inl h0.symm⟩ <;> (try simp only) <;> omega
  · split
    · refine ⟨target, ?_, ?_, ?_, ?_, Nat.le_refl _, ?_, fun _ => rfl, ?_, Or.inr rfl⟩ <;> (try simp only) <;> omega
    · refine ⟨min value target, ?_, ?_, ?_, Nat.le_refl _, ?_, ?_, ?_, ?_, Or.inl rfl⟩ <;> (try simp only) <;> omega

/-- Effect of slashing the chunks. -/
theorem slashChunks_spec (m : Balance) (cs : List Chunk) : ∀ total value, chunkSum cs ≤ total →
    ∃ d, (slashChunks m cs total value).1 + d = total ∧
      chunkSum (slashChunks m cs total value).2 + d = chunkSum cs ∧ min value (chunkSum cs) ≤ d ∧ d ≤ value + m ∧
      (∀ e, due e (slashChunks m cs total value).2 ≤ due e cs) := by
  induction cs with
  | nil => intro total value h; exact ⟨0, rfl, rfl, by simp, Nat.zero_le _, fun _ => Nat.le_refl _⟩
  | cons c cs ih =>
    intro total value h
    simp only [chunkSum_cons] at h
    obtain ⟨d, h1, h2, h3, h4, h5, h6, h7, h8, h9⟩ := slashPart_spec m total c.value value (by omega)
    unfold slashChunks
    simp only
    generalize hr : slashPart m total c.value value = r at *
    obtain ⟨t', x', v'⟩ := r
    simp only at *
    have hdue : ∀ e, due e cs ≤ due e (c :: cs) := by
      intro e
      unfold due
      by_cases hc : c.era ≤ e
      · rw [List.filter_cons_of_pos (by simpa using hc)]; simp only [chunkSum_cons]; omega
      · rw [List.filter_cons_of_neg (by simpa using hc)]; exact Nat.le_refl _
    split
    · rename_i h0
      obtain ⟨d', g1, g2, g3, g4, g5⟩ := ih t' v' (by omega)
      refine ⟨d + d', by omega, by simp only [chunkSum_cons]; omega, by simp only [chunkSum_cons]; omega, ?_,
        fun e => Nat.le_trans (g5 e) (hdue e)⟩
      · -- dust is taken only from the part at which the value runs out
        by_cases hv : v' = 0
        · -- all the rest are empty chunks
          subst hv
          have hz : ∀ (cs : List Chunk) (t : Balance), (slashChunks m cs t 0).1 = t := by
            intro cs
            induction cs with
            | nil => intro t; rfl
            | cons c cs ih =>
              intro t
              unfold slashChunks
              have : slashPart m t c.value 0 = (t, c.value, 0) := by simp [slashPart]
              rw [this]
              simp only
              split
              · exact ih t
              · rfl
          have := hz cs t'
          omega
        · omega
    · rename_i h0
      refine ⟨d, h1, by simp only [chunkSum_cons]; omega, ?_, h6, ?_⟩
      · simp only [chunkSum_cons]
        rcases h9 with h9 | h9 <;> omega
      · intro e
        unfold due
        by_cases hc : c.era ≤ e
        · rw [List.filter_cons_of_pos (by simpa using hc), List.filter_cons_of_pos (by simpa using hc)]
          simp only [chunkSum_cons]; omega
        · rw [List.filter_cons_of_neg (by simpa using hc), List.filter_cons_of_neg (by simpa using hc)]
          exact Nat.le_refl _

theorem slashChunks_zero (m : Balance) (cs : List Chunk) (hpos : ∀ c ∈ cs, 0 < c.value) (total : Balance) :
    slashChunks m cs total 0 = (total, cs) := by
  cases cs with
  | nil => rfl
  | cons c cs =>
    unfold slashChunks
    have : slashPart m total c.value 0 = (total, c.value, 0) := by simp [slashPart]
    rw [this]
    simp only
    rw [if_neg (by have := hpos c List.mem_cons_self; omega)]

/-- Chunks after a slash: some of the first are used up, the next one may be reduced, the rest is untouched. -/
theorem slashChunks_order (m : Balance) (cs : List Chunk) : ∀ total value,
    ∃ used rest, cs = used ++ rest ∧ ((slashChunks m cs total value).2 = rest ∨
      ∃ c cs' x, rest = c :: cs' ∧ (slashChunks m cs total value).2 = { c with value := x } :: cs') := by
  induction cs with
  | nil => intro total value; exact ⟨[], [], rfl, Or.inl rfl⟩
  | cons c cs ih =>
    intro total value
    unfold slashChunks
    simp only
    split
    · obtain ⟨used, rest, h1, h2⟩ := ih (slashPart m total c.value value).1 (slashPart m total c.value value).2.2
      exact ⟨c :: used, rest, by rw [h1, List.cons_append], h2⟩
    · exact ⟨[], c :: cs, rfl, Or.inr ⟨c, cs, _, rfl, rfl⟩⟩

theorem slash_spec {l : Ledger} (h : l.Balanced) (value m : Balance) :
    (slashLedger l value m).1.Balanced ∧
    (slashLedger l value m).1.total + (slashLedger l value m).2 = l.total ∧
    min value l.total ≤ (slashLedger l value m).2 ∧ (slashLedger l value m).2 ≤ value + m ∧
    (slashLedger l value m).1.active ≤ l.active ∧
    (slashLedger l value m).1.stash = l.stash ∧
    (∀ e, due e (slashLedger l value m).1.unlocking ≤ due e l.unlocking) := by
  unfold Ledger.Balanced at *
  obtain ⟨d, h1, h2, h3, h4, h5, h6, h7, h8, h9⟩ := slashPart_spec m l.total l.active value (by omega)
  unfold slashLedger
  simp only
  generalize hr : slashPart m l.total l.active value = r at *
  obtain ⟨t', x', v'⟩ := r
  simp only at *
  obtain ⟨d', g1, g2, g3, g4, g5⟩ := slashChunks_spec m l.unlocking t' v' (by omega)
  by_cases hv : v' = 0
  · have hz : ∀ (cs : List Chunk) (t : Balance), (slashChunks m cs t 0).1 = t := by
      intro cs
      induction cs with
      | nil => intro t; rfl
      | cons c cs ih =>
        intro t
        unfold slashChunks
        have : slashPart m t c.value 0 = (t, c.value, 0) := by simp [slashPart]
        rw [this]
        simp only
        split
        · exact ih t
        · rfl
    have := hz l.unlocking t'
    rw [← hv] at this
    exact ⟨by omega, by omega, by omega, by omega, by omega, trivial, g5⟩
  · exact ⟨by omega, by omega, by omega, by omega, by omega, trivial, g5⟩

/-- Every chunk has a positive value. -/
def PosChunks (cs : List Chunk) : Prop := ∀ ch ∈ cs, 0 < ch.value

theorem PosChunks.append {a b : List Chunk} (ha : PosChunks a) (hb : PosChunks b) : PosChunks (a ++ b) := by
  intro ch h
  rcases List.mem_append.1 h with h | h
  · exact ha ch h
  · exact hb ch h

theorem rebondLoop_pos (value : Balance) (cs : List Chunk) : ∀ active got, PosChunks cs →
    PosChunks (rebondLoop value cs active got).2 := by
  induction cs with
  | nil => intro active got h; exact h
  | cons c cs ih =>
    intro active got h
    have ht : PosChunks cs := fun ch hch => h ch (List.mem_cons_of_mem _ hch)
    unfold rebondLoop
    split
    · split
      · exact ht
      · exact ih _ _ ht
    · intro ch hch
      rcases List.mem_cons.1 hch with rfl | hch
      · have := h c List.mem_cons_self
        simp only; omega
      · exact ht ch hch

theorem rebond_pos {l : Ledger} (v : Balance) (h : PosChunks l.unlocking) : PosChunks (rebondLedger l v).unlocking := by
  intro ch hch
  exact rebondLoop_pos v l.unlocking.reverse l.active 0 (fun c hc => h c (List.mem_reverse.1 hc)) ch (List.mem_reverse.1 hch)

theorem slashChunks_pos (m : Balance) (cs : List Chunk) : ∀ total value, PosChunks cs →
    PosChunks (slashChunks m cs total value).2 := by
  induction cs with
  | nil => intro total value h; exact h
  | cons c cs ih =>
    intro total value h
    have ht : PosChunks cs := fun ch hch => h ch (List.mem_cons_of_mem _ hch)
    unfold slashChunks
    simp only
    split
    · exact ih _ _ ht
    · intro ch hch
      rcases List.mem_cons.1 hch with rfl | hch
      · simp only; omega
      · exact ht ch hch

theorem slashLedger_pos {l : Ledger} (v m : Balance) (h : PosChunks l.unlocking) :
    PosChunks (slashLedger l v m).1.unlocking := slashChunks_pos m _ _ _ h

/-! ### Calls -/

theorem step_cases (cfg : Cfg) (s : State) (op : Op) :
    (∃ r, body cfg s op = .ok r ∧ step cfg s op = r) ∨ (∃ e, body cfg s op = .error e ∧ step cfg s op = (s, .failed e)) := by
  unfold step
  cases h : body cfg s op with
  | ok r => exact Or.inl ⟨r, rfl, rfl⟩
  | error e => exact Or.inr ⟨e, rfl, rfl⟩

/-- The fields of the state that have to do with bonding are unchanged. -/
structure Same (s s' : State) : Prop where
  bonded : s'.bonded = s.bonded
  ledgers : s'.ledgers = s.ledgers
  locks : s'.locks = s.locks

theorem Same.rfl' (s : State) : Same s s := ⟨rfl, rfl, rfl⟩

theorem setLock_fields (cfg : Cfg) (s : State) (a : AccId) (v : Balance) :
    (setLock cfg s a v).bonded = s.bonded ∧ (setLock cfg s a v).ledgers = s.ledgers ∧
    (setLock cfg s a v).locks = (if v = 0 ∧ cfg.zeroLock = false then s.locks else s.locks.insert a v) ∧
    (setLock cfg s a v).era = s.era ∧ (setLock cfg s a v).minBond = s.minBond ∧
    (setLock cfg s a v).validators = s.validators ∧ (setLock cfg s a v).payees = s.payees := by
  unfold setLock
  split <;> exact ⟨rfl, rfl, rfl, rfl, rfl, rfl, rfl⟩

/-- Amount an output withdraws for `a`. -/
def wd (a : AccId) : Out → Balance
  | .withdrawn b v => if b = a then v else 0
  | _ => 0

/-- Amount a call unbonds for `a` that is due at era `e`. -/
def ub (cfg : Cfg) (a : AccId) (e : Nat) (s : State) : Out → Balance
  | .unbonded b v => if b = a ∧ s.era.getD 0 + cfg.bondingDuration ≤ e then v else 0
  | _ => 0

/-- How a successful call changes bonding data: nothing, a new bond, a changed ledger, a moved ledger, a
removed ledger. -/
inductive Change (cfg : Cfg) (s s' : State) (o : Out) : Prop
  | same (h : Same s s') (ho : ∀ a, wd a o = 0)
  | fresh (stash c : AccId) (v : Balance) (h1 : s.bonded.get stash = none) (h2 : s.ledgers.get c = none)
      (h3 : s'.bonded = s.bonded.insert stash c) (h4 : s'.ledgers = s.ledgers.insert c ⟨stash, v, v, []⟩)
      (h5 : s'.locks = if v = 0 ∧ cfg.zeroLock = false then s.locks else s.locks.insert stash v)
      (ho : ∀ a, wd a o = 0)
  | update (c : AccId) (l l' : Ledger) (h1 : s.ledgers.get c = some l) (h2 : l'.stash = l.stash)
      (h3 : l.Balanced → l'.Balanced) (h4 : s'.bonded = s.bonded) (h5 : s'.ledgers = s.ledgers.insert c l')
      (h6 : s'.locks = (if l'.total = 0 ∧ cfg.zeroLock = false then s.locks else s.locks.insert l.stash l'.total) ∨
        s'.locks = (if l'.total = 0 ∧ cfg.zeroLock = false then s.locks.erase l.stash else
          (s.locks.erase l.stash).insert l.stash l'.total))
      (ho1 : ∀ a, a ≠ l.stash → wd a o = 0)
      (ho2 : l.Balanced → ∀ e, s.era.getD 0 ≤ e →
        wd l.stash o + due e l'.unlocking ≤ due e l.unlocking + ub cfg l.stash e s o)
      (hp : PosChunks l.unlocking → PosChunks l'.unlocking)
  | move (stash c old : AccId) (h1 : s.bonded.get stash = some old) (h2 : s.ledgers.get c = none)
      (h3 : s'.bonded = s.bonded.insert stash c)
      (h4 : s'.ledgers = match s.ledgers.get old with | none => s.ledgers | some l => (s.ledgers.erase old).insert c l)
      (h5 : s'.locks = s.locks) (ho : ∀ a, wd a o = 0)
  | kill (stash c : AccId) (h1 : s.bonded.get stash = some c) (h2 : s'.bonded = s.bonded.erase stash)
      (h3 : s'.ledgers = s.ledgers.erase c) (h4 : s'.locks = s.locks.erase stash)
      (ho1 : ∀ a, a ≠ stash → wd a o = 0)
      (ho2 : wd stash o = 0 ∨ ∃ c0 l0, s.ledgers.get c0 = some l0 ∧ l0.stash = stash ∧
        (l0.Balanced → wd stash o ≤ due (s.era.getD 0) l0.unlocking))

theorem killStash_ok {s s1 : State} {a : AccId} {k : Bool} (h : killStash s a k = .ok s1) :
    ∃ c, s.bonded.get a = some c ∧ s1 = { s with bonded := s.bonded.erase a, ledgers := s.ledgers.erase c, payees := s.payees.erase a, validators := s.validators.erase a } := by
  unfold killStash at h
  split at h
  · cases h
  · rename_i c hc
    split at h
    · cases h
    · cases h; exact ⟨c, hc, rfl⟩

theorem updateLedger_change {cfg : Cfg} {s s0 : State} {o : Out} {c : AccId} {l l' : Ledger}
    (h1 : s.ledgers.get c = some l) (h2 : l'.stash = l.stash) (h3 : l.Balanced → l'.Balanced) (hs : Same s s0)
    (ho1 : ∀ a, a ≠ l.stash → wd a o = 0)
    (ho2 : l.Balanced → ∀ e, s.era.getD 0 ≤ e →
      wd l.stash o + due e l'.unlocking ≤ due e l.unlocking + ub cfg l.stash e s o)
    (hp : PosChunks l.unlocking → PosChunks l'.unlocking) :
    Change cfg s (updateLedger cfg s0 c l') o := by
  obtain ⟨e1, e2, e3, _⟩ := setLock_fields cfg s0 l'.stash l'.total
  refine .update c l l' h1 h2 h3 ?_ ?_ (Or.inl ?_) ho1 ho2 hp
  · show (setLock cfg s0 l'.stash l'.total).bonded = _
    rw [e1, hs.bonded]
  · show (setLock cfg s0 l'.stash l'.total).ledgers.insert c l' = _
    rw [e2, hs.ledgers]
  · show (setLock cfg s0 l'.stash l'.total).locks = _
    rw [e3, hs.locks, h2]

theorem contains_false {κ α : Type} [DecidableEq κ] {m : FMap κ α} {k : κ} (h : ¬ m.contains k = true) :
    m.get k = none := by
  unfold FMap.contains at h
  cases hg : m.get k with
  | none => rfl
  | some v => rw [hg] at h; exact absurd rfl h

/-- Output of a withdrawal. -/
def withdrawOut (l : Ledger) (era : Option Nat) : Out :=
  if (consolidateAt l era).total < l.total then .withdrawn l.stash (l.total - (consolidateAt l era).total) else .done

theorem withdraw_other (l : Ledger) (era : Option Nat) (a : AccId) (h : a ≠ l.stash) :
    wd a (withdrawOut l era) = 0 := by
  unfold withdrawOut
  split
  · simp only [wd]; rw [if_neg (Ne.symm h)]
  · rfl

theorem withdraw_due {l : Ledger} (h : l.Balanced) (era : Option Nat) :
    wd l.stash (withdrawOut l era) ≤ due (era.getD 0) l.unlocking := by
  unfold withdrawOut
  split
  · simp only [wd, if_true]
    cases era with
    | none => simp [consolidateAt]
    | some e =>
      have := (consolidate_balanced h e).2
      simp only [consolidateAt, Option.getD_some]
      omega
  · exact Nat.zero_le _

theorem due_filter {now e : Nat} (h : now ≤ e) (cs : List Chunk) :
    due now cs + due e (cs.filter fun c => decide (now < c.era)) = due e cs := by
  induction cs with
  | nil => rfl
  | cons c cs ih =>
    unfold due at *
    by_cases h1 : now < c.era
    · rw [List.filter_cons_of_pos (p := fun c : Chunk => decide (now < c.era)) (by simpa using h1),
        List.filter_cons_of_neg (p := fun c : Chunk => decide (c.era ≤ now)) (by simp; omega)]
      by_cases h2 : c.era ≤ e
      · rw [List.filter_cons_of_pos (by simpa using h2), List.filter_cons_of_pos (by simpa using h2)]
        simp only [chunkSum_cons]; omega
      · rw [List.filter_cons_of_neg (by simpa using h2), List.filter_cons_of_neg (by simpa using h2)]
        exact ih
    · rw [List.filter_cons_of_neg (p := fun c : Chunk => decide (now < c.era)) (by simpa using h1),
        List.filter_cons_of_pos (p := fun c : Chunk => decide (c.era ≤ now)) (by simp; omega),
        List.filter_cons_of_pos (p := fun c : Chunk => decide (c.era ≤ e)) (by simp; omega)]
      simp only [chunkSum_cons]; omega

theorem withdraw_rest {l : Ledger} (h : l.Balanced) (era : Option Nat) (e : Nat) (he : era.getD 0 ≤ e) :
    wd l.stash (withdrawOut l era) + due e (consolidateAt l era).unlocking ≤ due e l.unlocking := by
  have h1 := withdraw_due h era
  cases era with
  | none =>
    have : withdrawOut l none = .done := by unfold withdrawOut; simp [consolidateAt]
    rw [this]
    simp [wd, consolidateAt]
  | some now =>
    have h2 := due_filter he l.unlocking
    simp only [Option.getD_some, consolidateAt, consolidate] at *
    omega

theorem step_change (cfg : Cfg) (s : State) (op : Op) : Change cfg s (step cfg s op).1 (step cfg s op).2 := by
  rcases step_cases cfg s op with ⟨r, hb, hs⟩ | ⟨e, hb, hs⟩
  rotate_left
  · rw [hs]; exact .same (Same.rfl' s) fun _ => rfl
  rw [hs]
  cases op with
  | bond a c v p k =>
    simp only [body] at hb
    unfold bond at hb
    split at hb
    · cases hb
    rename_i h1
    split at hb
    · cases hb
    rename_i h2
    split at hb
    · cases hb
    split at hb
    · cases hb
    simp only [Except.ok.injEq] at hb
    subst hb
    obtain ⟨e1, e2, e3, _⟩ := setLock_fields cfg { s with bonded := s.bonded.insert a c, payees := s.payees.insert a p } a
      (min v (s.bank.free a))
    refine .fresh a c (min v (s.bank.free a)) (contains_false h1) (contains_false h2) e1 ?_ e3 fun _ => rfl
    show FMap.insert _ c _ = _
    rw [e2]
  | setMinBond k v =>
    simp only [body] at hb
    unfold setMinBond at hb
    split at hb
    · cases hb
    split at hb
    · cases hb
    · cases hb; exact .same ⟨rfl, rfl, rfl⟩ fun _ => rfl
  | bondExtra a v =>
    simp only [body] at hb
    unfold bondExtra at hb
    split at hb
    · cases hb
    split at hb
    · cases hb
    split at hb
    · cases hb
    rename_i l hl
    split at hb
    · cases hb; exact .same (Same.rfl' s) fun _ => rfl
    simp only at hb
    split at hb
    · cases hb
    cases hb
    refine updateLedger_change hl rfl ?_ (Same.rfl' s) (fun _ _ => rfl) (fun _ e _ => by simp [wd]) id
    unfold Ledger.Balanced
    intro h
    simp only
    omega
  | unbond c v =>
    simp only [body] at hb
    unfold unbond at hb
    split at hb
    · cases hb
    split at hb
    · cases hb
    rename_i l hl
    split at hb
    · cases hb
    simp only at hb
    split at hb
    · cases hb; exact .same (Same.rfl' s) fun _ => rfl
    cases hb
    rename_i hv
    refine updateLedger_change hl rfl ?_ (Same.rfl' s) (fun _ _ => rfl) ?_ (fun hp => hp.append ?_)
    · unfold Ledger.Balanced
      intro h
      simp only [chunkSum_append, chunkSum_cons, chunkSum_nil]
      split <;> omega
    · intro _ e _
      simp only [wd, ub, due, List.filter_append, chunkSum_append, true_and, List.filter_cons, List.filter_nil,
        decide_eq_true_eq]
      split <;> simp
    · intro ch hch
      rw [List.mem_singleton] at hch
      subst hch
      simp only
      split <;> omega
  | withdraw c k =>
    simp only [body] at hb
    unfold withdraw at hb
    split at hb
    · cases hb
    split at hb
    · cases hb
    rename_i l hl
    simp only at hb
    split at hb
    · split at hb
      · cases hb
      rename_i s1 hk
      cases hb
      obtain ⟨c', hc', rfl⟩ := killStash_ok hk
      refine .kill l.stash c' hc' rfl rfl rfl (withdraw_other l s.era) (Or.inr ⟨c, l, hl, rfl, ?_⟩)
      intro h
      exact withdraw_due h s.era
    · cases hb
      refine updateLedger_change hl ?_ ?_ (Same.rfl' s) (withdraw_other l s.era) (fun h e he =>
        Nat.le_trans (withdraw_rest h s.era e he) (Nat.le_add_right _ _)) ?_
      · unfold consolidateAt; split <;> rfl
      · intro h
        unfold consolidateAt
        split
        · exact (consolidate_balanced h _).1
        · exact h
      · intro h
        unfold consolidateAt
        split
        · exact fun ch hch => h ch (List.mem_filter.1 hch).1
        · exact h
  | validate c p =>
    simp only [body] at hb
    unfold validate at hb
    split at hb
    · cases hb
    split at hb
    · cases hb
    · cases hb; exact .same ⟨rfl, rfl, rfl⟩ fun _ => rfl
  | chill c =>
    simp only [body] at hb
    unfold chill at hb
    split at hb
    · cases hb
    split at hb
    · cases hb
    · cases hb; exact .same ⟨rfl, rfl, rfl⟩ fun _ => rfl
  | setPayee c d =>
    simp only [body] at hb
    unfold setPayee at hb
    split at hb
    · cases hb
    · cases hb; exact .same ⟨rfl, rfl, rfl⟩ fun _ => rfl
  | setController a c =>
    simp only [body] at hb
    unfold setController at hb
    split at hb
    · cases hb
    rename_i old hold
    split at hb
    · cases hb
    rename_i hc
    split at hb
    · cases hb; exact .same (Same.rfl' s) fun _ => rfl
    split at hb
    · rename_i hn
      cases hb
      refine .move a c old hold (contains_false hc) rfl ?_ rfl fun _ => rfl
      rw [hn]
    · rename_i l hl
      cases hb
      refine .move a c old hold (contains_false hc) rfl ?_ rfl fun _ => rfl
      rw [hl]
  | forceUnstake k a q =>
    simp only [body] at hb
    unfold forceUnstake at hb
    split at hb
    · cases hb
    split at hb
    · cases hb
    rename_i s1 hk
    cases hb
    obtain ⟨c', hc', rfl⟩ := killStash_ok hk
    exact .kill a c' hc' rfl rfl rfl (fun _ _ => rfl) (Or.inl rfl)
  | rebond c v =>
    simp only [body] at hb
    unfold rebond at hb
    split at hb
    · cases hb
    split at hb
    · cases hb
    rename_i l hl
    split at hb
    · cases hb
    split at hb
    · cases hb
    cases hb
    refine updateLedger_change hl rfl (fun h => (rebond_spec h v).1) (Same.rfl' s) (fun _ _ => rfl) (fun h e _ => ?_)
      (rebond_pos v)
    have := (rebond_spec h v).2.2.2 e
    simp only [wd, ub]
    omega
  | reap a q =>
    simp only [body] at hb
    unfold reap at hb
    split at hb
    · cases hb
    split at hb
    · cases hb
    rename_i s1 hk
    cases hb
    obtain ⟨c', hc', rfl⟩ := killStash_ok hk
    exact .kill a c' hc' rfl rfl rfl (fun _ _ => rfl) (Or.inl rfl)
  | burn c v =>
    simp only [body] at hb
    unfold burn at hb
    split at hb
    · cases hb
    rename_i l hl
    cases hb
    obtain ⟨e1, e2, e3, _⟩ := setLock_fields cfg { removeLock s l.stash with bank := ((removeLock s l.stash).bank.slash l.stash (slashLedger l v s.bank.ed).2).1 }
      l.stash (slashLedger l v s.bank.ed).1.total
    refine .update c l (slashLedger l v s.bank.ed).1 hl rfl (fun h => (slash_spec h v s.bank.ed).1) e1 ?_ (Or.inr e3)
      (fun _ _ => rfl) ?_ (slashLedger_pos v s.bank.ed)
    · show FMap.insert _ c _ = _
      rw [show (slashLedger l v s.bank.ed).1.stash = l.stash from rfl, e2]
      rfl
    · intro h e _
      have := (slash_spec h v s.bank.ed).2.2.2.2.2.2 e
      simp only [wd, ub]
      omega
  | slash a v =>
    simp only [body] at hb
    cases hb
    unfold doSlash
    split
    · exact .same (Same.rfl' s) fun _ => rfl
    split
    · exact .same (Same.rfl' s) fun _ => rfl
    rename_i l hl
    simp only
    split
    · exact .same (Same.rfl' s) fun _ => rfl
    · refine updateLedger_change hl rfl (fun h => (slash_spec h v s.bank.ed).1) ⟨rfl, rfl, rfl⟩ (fun _ _ => rfl) ?_
        (slashLedger_pos v s.bank.ed)
      intro h e _
      have := (slash_spec h v s.bank.ed).2.2.2.2.2.2 e
      simp only [wd, ub]
      omega
  | payout a v =>
    simp only [body] at hb
    cases hb
    simp only
    unfold payout
    split
    · split
      · exact .same (Same.rfl' s) fun _ => rfl
      · exact .same ⟨rfl, rfl, rfl⟩ fun _ => rfl
    · exact .same ⟨rfl, rfl, rfl⟩ fun _ => rfl
    · split
      · exact .same (Same.rfl' s) fun _ => rfl
      split
      · exact .same (Same.rfl' s) fun _ => rfl
      rename_i l hl
      refine updateLedger_change hl rfl ?_ ⟨rfl, rfl, rfl⟩ (fun _ _ => rfl) (fun _ e _ => by simp [wd]) id
      unfold Ledger.Balanced
      intro h
      simp only
      omega
    · exact .same ⟨rfl, rfl, rfl⟩ fun _ => rfl
  | kick a =>
    simp only [body] at hb
    cases hb
    exact .same ⟨rfl, rfl, rfl⟩ fun _ => rfl
  | newEra =>
    simp only [body] at hb
    cases hb
    exact .same ⟨rfl, rfl, rfl⟩ fun _ => rfl
  | external b o k =>
    simp only [body] at hb
    cases hb
    exact .same ⟨rfl, rfl, rfl⟩ fun _ => rfl

/-- Bonding data fit together. -/
structure Inv (cfg : Cfg) (s : State) : Prop where
  /-- the controller of a stash has the ledger of that stash -/
  forward : ∀ a c, s.bonded.get a = some c → ∃ l, s.ledgers.get c = some l ∧ l.stash = a
  /-- the stash of a ledger is bonded to its controller -/
  back : ∀ c l, s.ledgers.get c = some l → s.bonded.get l.stash = some c
  balanced : ∀ c l, s.ledgers.get c = some l → l.Balanced
  lock : ∀ c l, s.ledgers.get c = some l → s.locks.get l.stash = some l.total ∨ (l.total = 0 ∧ cfg.zeroLock = false)
  noLock : ∀ a, s.bonded.get a = none → s.locks.get a = none

theorem Inv.inj {cfg : Cfg} {s : State} (h : Inv cfg s) {a b c : AccId} (ha : s.bonded.get a = some c)
    (hb : s.bonded.get b = some c) : a = b := by
  obtain ⟨l, h1, h2⟩ := h.forward a c ha
  obtain ⟨l', h3, h4⟩ := h.forward b c hb
  rw [h1] at h3
  cases h3
  rw [← h2, ← h4]

theorem Inv.change {cfg : Cfg} {s s' : State} {o : Out} (h : Inv cfg s) (hc : Change cfg s s' o) : Inv cfg s' := by
  cases hc with
  | same hs _ =>
    refine ⟨?_, ?_, ?_, ?_, ?_⟩
    · rw [hs.bonded, hs.ledgers]; exact h.forward
    · rw [hs.bonded, hs.ledgers]; exact h.back
    · rw [hs.ledgers]; exact h.balanced
    · rw [hs.ledgers, hs.locks]; exact h.lock
    · rw [hs.bonded, hs.locks]; exact h.noLock
  | fresh stash c v h1 h2 h3 h4 h5 _ =>
    have hne : ∀ c' l, s.ledgers.get c' = some l → l.stash ≠ stash := by
      intro c' l hl he
      have := h.back c' l hl
      rw [he, h1] at this
      cases this
    refine ⟨?_, ?_, ?_, ?_, ?_⟩
    · intro a c' hg
      rw [h3, FMap.get_insert] at hg
      rw [h4]
      split at hg
      · rename_i e
        cases hg
        exact ⟨_, FMap.get_insert_self _ _ _, e.symm⟩
      · obtain ⟨l, g1, g2⟩ := h.forward a c' hg
        have : c' ≠ c := fun e => by rw [e, h2] at g1; cases g1
        exact ⟨l, by rw [FMap.get_insert_ne _ _ this]; exact g1, g2⟩
    · intro c' l hl
      rw [h4, FMap.get_insert] at hl
      rw [h3]
      split at hl
      · rename_i e; cases hl; rw [e]; exact FMap.get_insert_self _ _ _
      · rw [FMap.get_insert_ne _ _ (hne c' l hl)]; exact h.back c' l hl
    · intro c' l hl
      rw [h4, FMap.get_insert] at hl
      split at hl
      · cases hl; simp [Ledger.Balanced]
      · exact h.balanced c' l hl
    · intro c' l hl
      rw [h4, FMap.get_insert] at hl
      rw [h5]
      split at hl
      · cases hl
        split
        · rename_i h0; exact Or.inr h0
        · exact Or.inl (FMap.get_insert_self _ _ _)
      · have := h.lock c' l hl
        split
        · exact this
        · rw [FMap.get_insert_ne _ _ (hne c' l hl)]; exact this
    · intro a ha
      rw [h3, FMap.get_insert] at ha
      split at ha
      · cases ha
      · rename_i hx
        rw [h5]
        split
        · exact h.noLock a ha
        · rw [FMap.get_insert_ne _ _ hx]; exact h.noLock a ha
  | update c l l' h1 h2 h3 h4 h5 h6 _ _ _ =>
    have hne : ∀ c' m, c' ≠ c → s.ledgers.get c' = some m → m.stash ≠ l.stash := by
      intro c' m hx hm he
      have g1 := h.back c' m hm
      have g2 := h.back c l h1
      rw [he, g2] at g1
      cases g1
      exact hx rfl
    refine ⟨?_, ?_, ?_, ?_, ?_⟩
    · intro a c' hg
      rw [h4] at hg
      obtain ⟨m, g1, g2⟩ := h.forward a c' hg
      rw [h5, FMap.get_insert]
      split
      · rename_i e
        rw [e, h1] at g1
        cases g1
        exact ⟨l', rfl, by rw [h2]; exact g2⟩
      · exact ⟨m, g1, g2⟩
    · intro c' m hm
      rw [h5, FMap.get_insert] at hm
      rw [h4]
      split at hm
      · rename_i e; cases hm; rw [h2, e]; exact h.back c l h1
      · exact h.back c' m hm
    · intro c' m hm
      rw [h5, FMap.get_insert] at hm
      split at hm
      · cases hm; exact h3 (h.balanced c l h1)
      · exact h.balanced c' m hm
    · intro c' m hm
      rw [h5, FMap.get_insert] at hm
      split at hm
      · cases hm
        rw [h2]
        rcases h6 with h6 | h6 <;> rw [h6] <;> split
        · rename_i h0; exact Or.inr h0
        · exact Or.inl (FMap.get_insert_self _ _ _)
        · rename_i h0; exact Or.inr h0
        · exact Or.inl (FMap.get_insert_self _ _ _)
      · rename_i hx
        have g1 := h.lock c' m hm
        have g2 := hne c' m hx hm
        rcases h6 with h6 | h6 <;> rw [h6] <;> split
        · exact g1
        · rw [FMap.get_insert_ne _ _ g2]; exact g1
        · rw [FMap.get_erase_ne _ g2]; exact g1
        · rw [FMap.get_insert_ne _ _ g2, FMap.get_erase_ne _ g2]; exact g1
    · intro a ha
      rw [h4] at ha
      have hx : a ≠ l.stash := by
        intro e
        rw [e, h.back c l h1] at ha
        cases ha
      have g := h.noLock a ha
      rcases h6 with h6 | h6 <;> rw [h6] <;> split
      · exact g
      · rw [FMap.get_insert_ne _ _ hx]; exact g
      · rw [FMap.get_erase_ne _ hx]; exact g
      · rw [FMap.get_insert_ne _ _ hx, FMap.get_erase_ne _ hx]; exact g
  | move stash c old h1 h2 h3 h4 h5 _ =>
    obtain ⟨l, g1, g2⟩ := h.forward stash old h1
    rw [g1] at h4
    simp only at h4
    have hco : c ≠ old := fun e => by rw [e, g1] at h2; cases h2
    have hget : ∀ c' m, s'.ledgers.get c' = some m → (c' = c ∧ m = l) ∨ (c' ≠ c ∧ c' ≠ old ∧ s.ledgers.get c' = some m) := by
      intro c' m hm
      rw [h4, FMap.get_insert] at hm
      split at hm
      · rename_i e; cases hm; exact Or.inl ⟨e, rfl⟩
      · rename_i hx
        rw [FMap.get_erase] at hm
        split at hm
        · cases hm
        · rename_i hy; exact Or.inr ⟨hx, hy, hm⟩
    refine ⟨?_, ?_, ?_, ?_, ?_⟩
    · intro a c' hg
      rw [h3, FMap.get_insert] at hg
      rw [h4]
      split at hg
      · rename_i e; cases hg; exact ⟨l, FMap.get_insert_self _ _ _, by rw [g2, e]⟩
      · rename_i hx
        obtain ⟨m, q1, q2⟩ := h.forward a c' hg
        have n1 : c' ≠ c := fun e => by rw [e, h2] at q1; cases q1
        have n2 : c' ≠ old := fun e => by rw [e] at hg; exact hx (h.inj hg h1)
        exact ⟨m, by rw [FMap.get_insert_ne _ _ n1, FMap.get_erase_ne _ n2]; exact q1, q2⟩
    · intro c' m hm
      rw [h3]
      rcases hget c' m hm with ⟨e1, e2⟩ | ⟨_, n2, hm⟩
      · rw [e1, e2, g2]; exact FMap.get_insert_self _ _ _
      · have q := h.back c' m hm
        have : m.stash ≠ stash := fun e => by rw [e, h1] at q; cases q; exact n2 rfl
        rw [FMap.get_insert_ne _ _ this]; exact q
    · intro c' m hm
      rcases hget c' m hm with ⟨_, e2⟩ | ⟨_, _, hm⟩
      · rw [e2]; exact h.balanced _ _ g1
      · exact h.balanced _ _ hm
    · intro c' m hm
      rw [h5]
      rcases hget c' m hm with ⟨_, e2⟩ | ⟨_, _, hm⟩
      · rw [e2]; exact h.lock _ _ g1
      · exact h.lock _ _ hm
    · intro a ha
      rw [h3, FMap.get_insert] at ha
      split at ha
      · cases ha
      · rw [h5]; exact h.noLock a ha
  | kill stash c h1 h2 h3 h4 _ _ =>
    have hst : ∀ c' m, c' ≠ c → s.ledgers.get c' = some m → m.stash ≠ stash := by
      intro c' m hx hm he
      have := h.back c' m hm
      rw [he, h1] at this
      cases this
      exact hx rfl
    have hget : ∀ c' m, s'.ledgers.get c' = some m → c' ≠ c ∧ s.ledgers.get c' = some m := by
      intro c' m hm
      rw [h3, FMap.get_erase] at hm
      split at hm
      · cases hm
      · rename_i hx; exact ⟨hx, hm⟩
    refine ⟨?_, ?_, ?_, ?_, ?_⟩
    · intro a c' hg
      rw [h2, FMap.get_erase] at hg
      split at hg
      · cases hg
      · rename_i hx
        obtain ⟨m, q1, q2⟩ := h.forward a c' hg
        have : c' ≠ c := fun e => by rw [e] at hg; exact hx (h.inj hg h1)
        exact ⟨m, by rw [h3, FMap.get_erase_ne _ this]; exact q1, q2⟩
    · intro c' m hm
      obtain ⟨hx, hm⟩ := hget c' m hm
      rw [h2, FMap.get_erase_ne _ (hst c' m hx hm)]
      exact h.back c' m hm
    · intro c' m hm
      exact h.balanced _ _ (hget c' m hm).2
    · intro c' m hm
      obtain ⟨hx, hm⟩ := hget c' m hm
      rw [h4, FMap.get_erase_ne _ (hst c' m hx hm)]
      exact h.lock c' m hm
    · intro a ha
      rw [h2, FMap.get_erase] at ha
      rw [h4, FMap.get_erase]
      split
      · rfl
      · rename_i hx
        rw [if_neg hx] at ha
        exact h.noLock a ha

theorem run_inv (cfg : Cfg) (ops : List Op) : ∀ s, Inv cfg s → Inv cfg (run cfg s ops).1 := by
  induction ops with
  | nil => intro s h; exact h
  | cons op ops ih => intro s h; exact ih _ (h.change (step_change cfg s op))

theorem genesis_inv (cfg : Cfg) (bank : Bank) (m : Balance) : Inv cfg (genesis bank m) :=
  ⟨(fun a c h => by simp [genesis] at h), (fun a c h => by simp [genesis] at h), (fun a c h => by simp [genesis] at h),
    (fun a c h => by simp [genesis] at h), fun a _ => rfl⟩

/-- All chunks of all ledgers are positive. -/
def AllPos (s : State) : Prop := ∀ c l, s.ledgers.get c = some l → PosChunks l.unlocking

theorem Change.pos {cfg : Cfg} {s s' : State} {o : Out} (h : AllPos s) (hc : Change cfg s s' o) : AllPos s' := by
  intro c' m hm
  cases hc with
  | same hs _ => rw [hs.ledgers] at hm; exact h c' m hm
  | fresh stash c v h1 h2 h3 h4 h5 _ =>
    rw [h4, FMap.get_insert] at hm
    split at hm
    · cases hm; intro ch hch; cases hch
    · exact h c' m hm
  | update c l l' h1 h2 h3 h4 h5 h6 _ _ hp =>
    rw [h5, FMap.get_insert] at hm
    split at hm
    · cases hm; exact hp (h c l h1)
    · exact h c' m hm
  | move stash c old h1 h2 h3 h4 h5 _ =>
    rw [h4] at hm
    split at hm
    · exact h c' m hm
    · rename_i l hl
      rw [FMap.get_insert] at hm
      split at hm
      · cases hm; exact h old _ hl
      · rw [FMap.get_erase] at hm
        split at hm
        · cases hm
        · exact h c' m hm
  | kill stash c h1 h2 h3 h4 _ _ =>
    rw [h3, FMap.get_erase] at hm
    split at hm
    · cases hm
    · exact h c' m hm

theorem run_pos (cfg : Cfg) (ops : List Op) : ∀ s, AllPos s → AllPos (run cfg s ops).1 := by
  induction ops with
  | nil => intro s h; exact h
  | cons op ops ih => intro s h; exact ih _ ((step_change cfg s op).pos h)

/-- What is unlocking for a stash and due at an era. -/
def pending (s : State) (a : AccId) (e : Nat) : Balance :=
  match s.bonded.get a with
  | none => 0
  | some c =>
    match s.ledgers.get c with
    | none => 0
    | some l => due e l.unlocking

theorem pending_of {s : State} {a c : AccId} {l : Ledger} (h1 : s.bonded.get a = some c)
    (h2 : s.ledgers.get c = some l) (e : Nat) : pending s a e = due e l.unlocking := by
  unfold pending
  rw [h1]
  simp only
  rw [h2]

theorem pending_none {s : State} {a : AccId} (h1 : s.bonded.get a = none) (e : Nat) : pending s a e = 0 := by
  unfold pending
  rw [h1]

theorem Change.pending {cfg : Cfg} {s s' : State} {o : Out} (h : Inv cfg s) (hc : Change cfg s s' o) (a : AccId)
    (e : Nat) (he : s.era.getD 0 ≤ e) : wd a o + pending s' a e ≤ pending s a e + ub cfg a e s o := by
  have h' := h.change hc
  cases hc with
  | same hs ho =>
    rw [ho]
    unfold Ledger.pending
    rw [hs.bonded, hs.ledgers]
    omega
  | fresh stash c v h1 h2 h3 h4 h5 ho =>
    rw [ho]
    by_cases ha : a = stash
    · subst ha
      rw [pending_of (s := s') (c := c) (l := ⟨a, v, v, []⟩) (by rw [h3]; exact FMap.get_insert_self _ _ _)
        (by rw [h4]; exact FMap.get_insert_self _ _ _)]
      simp [due]
    · have : Ledger.pending s' a e = Ledger.pending s a e := by
        unfold Ledger.pending
        rw [h3, FMap.get_insert_ne _ _ ha]
        cases hg : s.bonded.get a with
        | none => rfl
        | some c' =>
          obtain ⟨l, g1, g2⟩ := h.forward a c' hg
          have : c' ≠ c := fun e => by rw [e, h2] at g1; cases g1
          simp only
          rw [h4, FMap.get_insert_ne _ _ this]
      omega
  | update c l l' h1 h2 h3 h4 h5 h6 ho1 ho2 _ =>
    have hb := h.back c l h1
    by_cases ha : a = l.stash
    · subst ha
      rw [pending_of hb h1, pending_of (s := s') (c := c) (l := l') (by rw [h4]; exact hb)
        (by rw [h5]; exact FMap.get_insert_self _ _ _)]
      exact ho2 (h.balanced c l h1) e he
    · rw [ho1 a ha]
      have : Ledger.pending s' a e = Ledger.pending s a e := by
        unfold Ledger.pending
        rw [h4]
        cases hg : s.bonded.get a with
        | none => rfl
        | some c' =>
          have : c' ≠ c := fun e => by rw [e] at hg; exact ha (h.inj hg hb)
          simp only
          rw [h5, FMap.get_insert_ne _ _ this]
      omega
  | move stash c old h1 h2 h3 h4 h5 ho =>
    rw [ho]
    obtain ⟨l, g1, g2⟩ := h.forward stash old h1
    rw [g1] at h4
    simp only at h4
    by_cases ha : a = stash
    · subst ha
      rw [pending_of h1 g1, pending_of (s := s') (c := c) (l := l) (by rw [h3]; exact FMap.get_insert_self _ _ _)
        (by rw [h4]; exact FMap.get_insert_self _ _ _)]
      omega
    · have : Ledger.pending s' a e = Ledger.pending s a e := by
        unfold Ledger.pending
        rw [h3, FMap.get_insert_ne _ _ ha]
        cases hg : s.bonded.get a with
        | none => rfl
        | some c' =>
          obtain ⟨m, q1, q2⟩ := h.forward a c' hg
          have n1 : c' ≠ c := fun e => by rw [e, h2] at q1; cases q1
          have n2 : c' ≠ old := fun e => by rw [e] at hg; exact ha (h.inj hg h1)
          simp only
          rw [h4, FMap.get_insert_ne _ _ n1, FMap.get_erase_ne _ n2]
      omega
  | kill stash c h1 h2 h3 h4 ho1 ho2 =>
    by_cases ha : a = stash
    · subst ha
      rw [pending_none (s := s') (by rw [h2]; exact FMap.get_erase_self _ _)]
      rcases ho2 with ho2 | ⟨c0, l0, g1, g2, g3⟩
      · omega
      · have hb := h.back c0 l0 g1
        rw [g2] at hb
        rw [pending_of hb g1]
        have := g3 (h.balanced _ _ g1)
        have hmono : ∀ cs : List Chunk, due (s.era.getD 0) cs ≤ due e cs := fun cs => by
          have := due_filter he cs
          omega
        have := hmono l0.unlocking
        omega
    · rw [ho1 a ha]
      have : Ledger.pending s' a e = Ledger.pending s a e := by
        unfold Ledger.pending
        rw [h2, FMap.get_erase_ne _ ha]
        cases hg : s.bonded.get a with
        | none => rfl
        | some c' =>
          have : c' ≠ c := fun e => by rw [e] at hg; exact ha (h.inj hg h1)
          simp only
          rw [h3, FMap.get_erase_ne _ this]
      omega

end Verif.Ledger
