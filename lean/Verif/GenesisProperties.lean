import Verif.Genesis
import Verif.DelegationProperties
import Verif.StakingCreditProperties

/-!
# The first block: C113
-/

namespace Verif.Genesis

open Verif

/-- What the storage of the staking ledger says if exactly the stakers `xs` have bonded. -/
structure Book (xs : List Staker) (s : Ledger.State) : Prop where
  bonded : ∀ a c, s.bonded.get a = some c ↔ ∃ x ∈ xs, x.stash = a ∧ x.controller = c
  ledgers : ∀ c l, s.ledgers.get c = some l ↔ ∃ x ∈ xs, x.controller = c ∧ l = ⟨x.stash, x.amount, x.amount, []⟩
  payees : ∀ a d, s.payees.get a = some d ↔ ∃ x ∈ xs, x.stash = a ∧ d = .staked
  validators : ∀ a p, s.validators.get a = some p ↔ ∃ x ∈ xs, x.stash = a ∧ x.validator = true ∧ p = (0, false)
  locks : ∀ a v, s.locks.get a = some v ↔ ∃ x ∈ xs, x.stash = a ∧ v = x.amount

/-- Entries of the chain specification that can be carried out: no stash and no controller twice, enough money for the
stake, and the stake reaches the existential deposit. -/
structure Proper (bank : Bank) (xs : List Staker) : Prop where
  stashes : (xs.map Staker.stash).Nodup
  controllers : (xs.map Staker.controller).Nodup
  money : ∀ x ∈ xs, x.amount ≤ bank.free x.stash
  min : ∀ x ∈ xs, bank.ed ≤ x.amount

theorem none_of {α β : Type} [DecidableEq α] (m : FMap α β) (a : α) (h : ∀ b, m.get a ≠ some b) : m.contains a = false := by
  cases hb : m.contains a with
  | false => rfl
  | true =>
    obtain ⟨y, hy⟩ := (FMap.contains_iff _ _).1 hb
    exact absurd hy (h y)

/-- A successful `bond`. -/
theorem bond_ok (cfg : Ledger.Cfg) (s : Ledger.State) (x : Staker) (h1 : s.bonded.contains x.stash = false) (h2 : s.ledgers.contains x.controller = false)
    (h3 : s.minBond ≤ x.amount) (h4 : x.amount ≤ s.bank.free x.stash) (h5 : 0 < x.amount) :
    (Ledger.step cfg s (.bond x.stash x.controller x.amount .staked true)).1 =
      { Ledger.putLock { s with bonded := s.bonded.insert x.stash x.controller, payees := s.payees.insert x.stash .staked } x.stash x.amount with ledgers := s.ledgers.insert x.controller ⟨x.stash, x.amount, x.amount, []⟩ } := by
  have hm : min x.amount (s.bank.free x.stash) = x.amount := Nat.min_eq_left h4
  have hz : ¬ (x.amount = 0 ∧ cfg.zeroLock = false) := by omega
  simp only [Ledger.step, Ledger.body, Ledger.bond, h1, h2, Nat.not_lt.2 h3, hm, Ledger.updateLedger, Ledger.setLock, if_neg hz, if_false, Bool.true_eq_false, Bool.false_eq_true]
  rfl

theorem book_snoc {cfg : Ledger.Cfg} {s : Ledger.State} {xs : List Staker} {x : Staker} (hb : Book xs s) (hc : s.closed = true)
    (h1 : ∀ y ∈ xs, y.stash ≠ x.stash) (h2 : ∀ y ∈ xs, y.controller ≠ x.controller) (h3 : s.minBond ≤ x.amount)
    (h4 : x.amount ≤ s.bank.free x.stash) (h5 : 0 < x.amount) :
    ∃ t, addStaker cfg s x = some t ∧ Book (xs ++ [x]) t ∧ t.closed = true ∧ t.minBond = s.minBond ∧ t.bank.accts = s.bank.accts ∧
      t.bank.ed = s.bank.ed ∧ t.bank.issuance = s.bank.issuance := by
  have n1 : ∀ c, s.bonded.get x.stash ≠ some c := by
    intro c h
    obtain ⟨y, hy, e, _⟩ := (hb.bonded _ _).1 h
    exact h1 y hy e
  have n2 : ∀ l, s.ledgers.get x.controller ≠ some l := by
    intro l h
    obtain ⟨y, hy, e, _⟩ := (hb.ledgers _ _).1 h
    exact h2 y hy e
  have n3 : ∀ d, s.payees.get x.stash ≠ some d := by
    intro l h
    obtain ⟨y, hy, e, _⟩ := (hb.payees _ _).1 h
    exact h1 y hy e
  have n4 : ∀ d, s.validators.get x.stash ≠ some d := by
    intro l h
    obtain ⟨y, hy, e, _⟩ := (hb.validators _ _).1 h
    exact h1 y hy e
  have n5 : ∀ d, s.locks.get x.stash ≠ some d := by
    intro l h
    obtain ⟨y, hy, e, _⟩ := (hb.locks _ _).1 h
    exact h1 y hy e
  have hbo := bond_ok cfg s x (none_of _ _ n1) (none_of _ _ n2) h3 h4 h5
  -- the storage with the validator entry `m`
  have key : ∀ (t : Ledger.State), t.bonded = s.bonded.insert x.stash x.controller → t.payees = s.payees.insert x.stash .staked →
      t.ledgers = s.ledgers.insert x.controller ⟨x.stash, x.amount, x.amount, []⟩ → t.locks = s.locks.insert x.stash x.amount →
      t.validators = (if x.validator then s.validators.insert x.stash (0, false) else s.validators) → Book (xs ++ [x]) t := by
    intro t e1 e2 e3 e4 e5
    refine ⟨?_, ?_, ?_, ?_, ?_⟩
    · intro a c
      rw [e1]
      simp only [List.mem_append, List.mem_singleton]
      by_cases ha : a = x.stash
      · subst ha
        rw [FMap.get_insert_self]
        constructor
        · intro h; exact ⟨x, .inr rfl, rfl, Option.some.inj h⟩
        · rintro ⟨y, hy | rfl, e, rfl⟩
          · exact absurd e (h1 y hy)
          · rfl
      · rw [FMap.get_insert_ne _ _ ha, hb.bonded]
        constructor
        · rintro ⟨y, hy, e⟩; exact ⟨y, .inl hy, e⟩
        · rintro ⟨y, hy | rfl, e, e'⟩
          · exact ⟨y, hy, e, e'⟩
          · exact absurd e.symm ha
    · intro c l
      rw [e3]
      simp only [List.mem_append, List.mem_singleton]
      by_cases ha : c = x.controller
      · subst ha
        rw [FMap.get_insert_self]
        constructor
        · intro h; exact ⟨x, .inr rfl, rfl, (Option.some.inj h).symm⟩
        · rintro ⟨y, hy | rfl, e, rfl⟩
          · exact absurd e (h2 y hy)
          · rfl
      · rw [FMap.get_insert_ne _ _ ha, hb.ledgers]
        constructor
        · rintro ⟨y, hy, e⟩; exact ⟨y, .inl hy, e⟩
        · rintro ⟨y, hy | rfl, e, e'⟩
          · exact ⟨y, hy, e, e'⟩
          · exact absurd e.symm ha
    · intro a d
      rw [e2]
      simp only [List.mem_append, List.mem_singleton]
      by_cases ha : a = x.stash
      · subst ha
        rw [FMap.get_insert_self]
        constructor
        · intro h; exact ⟨x, .inr rfl, rfl, (Option.some.inj h).symm⟩
        · rintro ⟨y, hy | rfl, e, rfl⟩
          · rfl
          · rfl
      · rw [FMap.get_insert_ne _ _ ha, hb.payees]
        constructor
        · rintro ⟨y, hy, e⟩; exact ⟨y, .inl hy, e⟩
        · rintro ⟨y, hy | rfl, e, e'⟩
          · exact ⟨y, hy, e, e'⟩
          · exact absurd e.symm ha
    · intro a p
      rw [e5]
      simp only [List.mem_append, List.mem_singleton]
      by_cases ha : a = x.stash
      · subst ha
        cases hv : x.validator with
        | true =>
          rw [if_pos rfl, FMap.get_insert_self]
          constructor
          · intro h; exact ⟨x, .inr rfl, rfl, hv, (Option.some.inj h).symm⟩
          · rintro ⟨y, hy | rfl, e, _, rfl⟩ <;> rfl
        | false =>
          rw [if_neg (by simp)]
          constructor
          · intro h; exact absurd h (n4 p)
          · rintro ⟨y, hy | rfl, e, hv', _⟩
            · exact absurd e (h1 y hy)
            · rw [hv] at hv'; cases hv'
      · have : (if x.validator then s.validators.insert x.stash (0, false) else s.validators).get a = s.validators.get a := by
          split
          · exact FMap.get_insert_ne _ _ ha
          · rfl
        rw [this, hb.validators]
        constructor
        · rintro ⟨y, hy, e⟩; exact ⟨y, .inl hy, e⟩
        · rintro ⟨y, hy | rfl, e, e'⟩
          · exact ⟨y, hy, e, e'⟩
          · exact absurd e.symm ha
    · intro a v
      rw [e4]
      simp only [List.mem_append, List.mem_singleton]
      by_cases ha : a = x.stash
      · subst ha
        rw [FMap.get_insert_self]
        constructor
        · intro h; exact ⟨x, .inr rfl, rfl, (Option.some.inj h).symm⟩
        · rintro ⟨y, hy | rfl, e, rfl⟩
          · exact absurd e (h1 y hy)
          · rfl
      · rw [FMap.get_insert_ne _ _ ha, hb.locks]
        constructor
        · rintro ⟨y, hy, e⟩; exact ⟨y, .inl hy, e⟩
        · rintro ⟨y, hy | rfl, e, e'⟩
          · exact ⟨y, hy, e, e'⟩
          · exact absurd e.symm ha
  unfold addStaker
  rw [if_pos h4]
  simp only
  rw [hbo]
  refine ⟨_, rfl, ?_⟩
  cases hv : x.validator with
  | false =>
    rw [if_neg (by simp)]
    exact ⟨key _ rfl rfl rfl rfl (by rw [hv]; rfl), hc, rfl, rfl, rfl, rfl⟩
  | true =>
    rw [if_pos rfl]
    simp only [Ledger.step, Ledger.body, Ledger.validate, Ledger.putLock, hc, FMap.get_insert_self]
    exact ⟨key _ rfl rfl rfl rfl (by rw [hv]; rfl), rfl, rfl, rfl, rfl, rfl⟩

theorem free_of_accts {b b' : Bank} (h : b'.accts = b.accts) (a : AccId) : b'.free a = b.free a := by
  unfold Bank.free Bank.acct; rw [h]

theorem book_all (cfg : Ledger.Cfg) (xs : List Staker) : ∀ (ys : List Staker) (s : Ledger.State), Book ys s → s.closed = true → 0 < s.minBond →
    ((ys ++ xs).map Staker.stash).Nodup → ((ys ++ xs).map Staker.controller).Nodup → (∀ x ∈ xs, x.amount ≤ s.bank.free x.stash) →
    (∀ x ∈ xs, s.minBond ≤ x.amount) →
    ∃ t, addStakers cfg s xs = some t ∧ Book (ys ++ xs) t ∧ t.bank.accts = s.bank.accts ∧ t.bank.ed = s.bank.ed ∧ t.bank.issuance = s.bank.issuance := by
  induction xs with
  | nil => intro ys s hb _ _ _ _ _ _; exact ⟨s, rfl, by simpa using hb, rfl, rfl, rfl⟩
  | cons x xs ih =>
    intro ys s hb hc hz hs hct hm hmin
    have f1 : ∀ y ∈ ys, y.stash ≠ x.stash := by
      intro y hy e
      rw [List.map_append, List.map_cons] at hs
      have := (List.nodup_append.1 hs).2.2 _ (List.mem_map_of_mem (f := Staker.stash) hy) x.stash (by simp)
      exact this e
    have f2 : ∀ y ∈ ys, y.controller ≠ x.controller := by
      intro y hy e
      rw [List.map_append, List.map_cons] at hct
      have := (List.nodup_append.1 hct).2.2 _ (List.mem_map_of_mem (f := Staker.controller) hy) x.controller (by simp)
      exact this e
    have hx := hmin x (by simp)
    obtain ⟨t, e, b, c, m, k1, k2, k3⟩ := book_snoc (cfg := cfg) hb hc f1 f2 hx (hm x (by simp)) (by omega)
    have as : ys ++ x :: xs = (ys ++ [x]) ++ xs := by simp
    rw [as] at hs hct ⊢
    obtain ⟨u, e', b', k1', k2', k3'⟩ := ih (ys ++ [x]) t b c (by omega) hs hct
      (fun y hy => by rw [free_of_accts k1]; exact hm y (by simp [hy])) (fun y hy => by rw [m]; exact hmin y (by simp [hy]))
    refine ⟨u, ?_, b', k1'.trans k1, k2'.trans k2, k3'.trans k3⟩
    simp only [addStakers, e]
    exact e'

theorem no_delegation (cfg : StakingCredit.Cfg) (bank : Bank) (s : Delegation.State) (ds : List (AccId × List AccId)) :
    addDelegations cfg { bank := bank } s ds = if ds = [] then some s else none := by
  cases ds with
  | nil => rfl
  | cons x ds =>
    obtain ⟨d, vs⟩ := x
    have hp : Credit.passThreshold cfg.credit { bank := bank } d = false := rfl
    simp only [addDelegations, hp]
    rw [if_neg (by simp)]
    split
    · rfl
    · rename_i t ht
      exfalso
      have := Delegation.delegate_do ht
      unfold Delegation.doDelegate at this
      simp at this

/-- C113: a proper specification without delegations starts, and the staking ledger of the first block says exactly what
the specification says: each stash is bonded to its controller with its stake, all active, rewards are restaked, the stake
is locked, the stakers marked as validators are candidates, nobody else has any entry, and no money has moved. -/
theorem C113_bonded (cfg : StakingCredit.Cfg) (bank : Bank) (g : Spec) (hed : 0 < bank.ed) (hp : Proper bank g.stakers) (hd : g.delegations = []) :
    ∃ t, build cfg bank g = some t ∧ Book g.stakers t.dele.led ∧ (∀ a, t.dele.led.bank.free a = bank.free a) ∧
      t.dele.led.bank.issuance = bank.issuance ∧ t.dele.delegators = ∅ ∧ t.dele.eraReward = g.eraReward ∧
      t.dele.validatorCount = g.validatorCount ∧ t.dele.minValidators = g.minValidators ∧ t.dele.historyDepth = g.historyDepth := by
  obtain ⟨l, e, b, k1, k2, k3⟩ := book_all cfg.dele.led g.stakers [] (Ledger.genesis bank bank.ed)
    ⟨fun a c => by simp [Ledger.genesis, FMap.get_empty], fun a c => by simp [Ledger.genesis, FMap.get_empty], fun a c => by simp [Ledger.genesis, FMap.get_empty],
     fun a c => by simp [Ledger.genesis, FMap.get_empty], fun a c => by simp [Ledger.genesis, FMap.get_empty]⟩
    rfl hed hp.stashes hp.controllers hp.money hp.min
  refine ⟨{ dele := { Delegation.genesis bank bank.ed with led := l, eraReward := g.eraReward, validatorCount := g.validatorCount, minValidators := g.minValidators, historyDepth := g.historyDepth }, credit := Credit.genesis bank g.settings g.users, balances := ∅ },
    ?_, b, fun a => free_of_accts k1 a, k3, rfl, rfl, rfl, rfl, rfl⟩
  unfold build buildStaking
  have e' : addStakers cfg.dele.led (Delegation.genesis bank bank.ed).led g.stakers = some l := e
  simp only [e', hd, addDelegations]

/-! ### When the chain starts -/

theorem bond_accts (cfg : Ledger.Cfg) (s : Ledger.State) (x : Staker) :
    (Ledger.step cfg s (.bond x.stash x.controller x.amount .staked true)).1.bank.accts = s.bank.accts := by
  simp only [Ledger.step, Ledger.body, Ledger.bond, Ledger.updateLedger, Ledger.setLock, Ledger.putLock]
  (repeat' split) <;> first | rfl | (rename_i h; (repeat' split at h) <;> first | (cases h; rfl) | cases h)

theorem validate_accts (cfg : Ledger.Cfg) (s : Ledger.State) (c : AccId) (p : Nat × Bool) :
    (Ledger.step cfg s (.validate c p)).1.bank.accts = s.bank.accts := by
  simp only [Ledger.step, Ledger.body, Ledger.validate]
  (repeat' split) <;> first | rfl | (rename_i h; (repeat' split at h) <;> first | (cases h; rfl) | cases h)

theorem addStaker_accts {cfg : Ledger.Cfg} {s t : Ledger.State} {x : Staker} (h : addStaker cfg s x = some t) : t.bank.accts = s.bank.accts := by
  unfold addStaker at h
  split at h
  · cases h
    split
    · rw [validate_accts, bond_accts]
    · rw [bond_accts]
  · cases h

theorem addStakers_some (cfg : Ledger.Cfg) (xs : List Staker) : ∀ s : Ledger.State,
    (addStakers cfg s xs).isSome = true ↔ ∀ x ∈ xs, x.amount ≤ s.bank.free x.stash := by
  induction xs with
  | nil => intro s; simp [addStakers]
  | cons x xs ih =>
    intro s
    simp only [addStakers]
    split
    · rename_i h
      unfold addStaker at h
      split at h
      · cases h
      · rename_i hn
        simp only [Option.isSome_none, Bool.false_eq_true, false_iff]
        intro hall
        exact hn (hall x (by simp))
    · rename_i t h
      rw [ih t]
      have ha := addStaker_accts h
      have hx : x.amount ≤ s.bank.free x.stash := by
        unfold addStaker at h
        split at h
        · assumption
        · cases h
      constructor
      · intro hall y hy
        rcases List.mem_cons.1 hy with rfl | hy
        · exact hx
        · rw [← free_of_accts ha]; exact hall y hy
      · intro hall y hy
        rw [free_of_accts ha]
        exact hall y (by simp [hy])

/-- C113, finding: a chain starts if and only if every staker has the stake and the specification has no delegations. Since
no account has credit before the genesis of the credit pallet, which comes later, any delegation stops the node. -/
theorem C113_starts (cfg : StakingCredit.Cfg) (bank : Bank) (g : Spec) :
    (build cfg bank g).isSome = true ↔ g.delegations = [] ∧ ∀ x ∈ g.stakers, x.amount ≤ bank.free x.stash := by
  have h := addStakers_some cfg.dele.led g.stakers (Ledger.genesis bank bank.ed)
  have hb : (Ledger.genesis bank bank.ed).bank = bank := rfl
  rw [hb] at h
  unfold build buildStaking
  have e : (Delegation.genesis bank bank.ed).led = Ledger.genesis bank bank.ed := rfl
  simp only [e]
  cases ha : addStakers cfg.dele.led (Ledger.genesis bank bank.ed) g.stakers with
  | none =>
    rw [ha] at h
    simp only [Option.isSome_none, Bool.false_eq_true, false_iff] at h ⊢
    exact fun k => h k.2
  | some l =>
    rw [ha] at h
    simp only [Option.isSome_some, true_iff] at h
    simp only [no_delegation]
    by_cases hd : g.delegations = []
    · simp only [hd, if_true, Option.isSome_some, true_and, true_iff]; exact h
    · simp only [hd, if_false, Option.isSome_none, Bool.false_eq_true, false_and]

/-! ### The first block is the result of ordinary calls -/

/-- The calls for a staker. -/
def calls (x : Staker) : List Delegation.Op :=
  .ledger (.bond x.stash x.controller x.amount .staked true) :: if x.validator then [.ledger (.validate x.controller (0, false))] else []

theorem run_append (cfg : Delegation.Cfg) (ops ops' : List Delegation.Op) : ∀ s, (Delegation.run cfg s (ops ++ ops')).1 = (Delegation.run cfg (Delegation.run cfg s ops).1 ops').1 := by
  induction ops with
  | nil => intro s; rfl
  | cons o os ih => intro s; exact ih _

theorem stakers_run (cfg : Delegation.Cfg) (xs : List Staker) : ∀ (s : Delegation.State) (l : Ledger.State), addStakers cfg.led s.led xs = some l →
    (Delegation.run cfg s (xs.flatMap calls)).1 = { s with led := l } := by
  induction xs with
  | nil => intro s l h; cases h; rfl
  | cons x xs ih =>
    intro s l h
    simp only [addStakers] at h
    split at h
    · cases h
    rename_i t ht
    rw [List.flatMap_cons, run_append]
    have h1 : (Delegation.run cfg s (calls x)).1 = { s with led := t } := by
      unfold addStaker at ht
      split at ht
      · cases ht
        unfold calls
        cases x.validator with
        | true => rfl
        | false => rfl
      · cases ht
    rw [h1]
    exact ih _ _ h

/-- C113: the first block is what ordinary calls lead to from the empty storage, so that all properties of histories hold
for the chain from its specification on; the credit pallet has the settings and records of the specification. -/
theorem C113_history (cfg : StakingCredit.Cfg) (bank : Bank) (g : Spec) (t : StakingCredit.State) (h : build cfg bank g = some t) :
    t.dele = (Delegation.run cfg.dele (Delegation.genesis bank bank.ed)
      (.configure g.eraReward g.validatorCount g.minValidators [] g.historyDepth :: g.stakers.flatMap calls)).1 ∧
    t.credit = Credit.genesis bank g.settings g.users := by
  unfold build at h
  split at h
  · cases h
  rename_i s hs
  cases h
  refine ⟨?_, rfl⟩
  unfold buildStaking at hs
  simp only at hs
  split at hs
  · cases hs
  rename_i l hl
  rw [no_delegation] at hs
  split at hs
  · cases hs
    have := stakers_run cfg.dele g.stakers { Delegation.genesis bank bank.ed with eraReward := g.eraReward, validatorCount := g.validatorCount, minValidators := g.minValidators, historyDepth := g.historyDepth } l hl
    exact this.symm
  · cases hs

/-! ### Examples -/

def exBank : Bank :=
  { ed := 5, accts := FMap.insert (FMap.insert (FMap.insert ∅ 1 ⟨500, 0⟩) 2 ⟨400, 0⟩) 3 ⟨100, 0⟩, frozen := fun _ => 0, pinned := fun _ => false, issuance := 1000 }

/-- Two validators; 2 is its own controller; two users with credit. -/
def exSpec : Spec :=
  { validatorCount := 2, minValidators := 1, eraReward := 100, stakers := [⟨1, 11, 500, true⟩, ⟨2, 2, 300, true⟩, ⟨3, 13, 100, false⟩],
    settings := Credit.campaign8Settings, users := [(7, Credit.Data.new 8 130), (3, Credit.Data.new 8 40)] }

theorem exSpec_proper : Proper exBank exSpec.stakers :=
  ⟨by decide, by decide, by decide, by decide⟩

example : ((build StakingCredit.exCfg exBank exSpec).map fun t => (t.dele.led.ledgers.get 11, t.dele.led.validators.get 2, t.dele.led.validators.get 3, t.credit.core.userCredit.get 7)) =
    some (some ⟨1, 500, 500, []⟩, some (0, false), none, some (Credit.Data.new 8 130)) := by
  decide +kernel

/-- C113, finding: entries that cannot be carried out are skipped in silence: a second entry of the same stash, one whose
controller is taken, and one below the minimum; the chain starts without these validators. -/
theorem C113_skipped :
    ((build StakingCredit.exCfg exBank { exSpec with stakers := [⟨1, 11, 500, true⟩, ⟨1, 12, 300, true⟩, ⟨2, 11, 300, true⟩, ⟨3, 13, 0, true⟩] }).map
      fun t => (t.dele.led.bonded.keys, t.dele.led.validators.keys)) = some ([1], [1]) := by
  decide +kernel

/-- The same users as delegators of genesis: the node does not start although both have enough credit in the specification. -/
example : build StakingCredit.exCfg exBank { exSpec with delegations := [(7, [1])] } = none := by
  rw [← Option.not_isSome_iff_eq_none, C113_starts]
  simp

end Verif.Genesis
