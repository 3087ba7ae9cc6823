import Verif.CouncilLocks

/-
Property C98 of the council elections: when the calls succeed, what becomes of the votes and of the
lists of candidates, members and runners-up, and when an election takes place.
-/

namespace Verif.Council

/-! ### Specification -/

/-- The account can put down a deposit: it has the free balance, what is left covers its locks, and
what is left is an existing account. -/
def canReserve (b : Bank) (a : AccId) (d : Balance) : Prop :=
  d = 0 ∨ (d ≤ b.free a ∧ b.frozen a ≤ b.free a - d ∧ (b.ed ≤ b.free a - d ∨ b.free a < b.ed))

/-- Somebody one can vote for: candidate, member or runner-up. -/
def stands (s : State) (a : AccId) : Prop :=
  a ∈ s.candidates.map Prod.fst ∨ a ∈ s.members.map Seat.who ∨ a ∈ s.runnersUp.map Seat.who

/-- The deposit held for the votes of an account. -/
def votingDeposit (s : State) (a : AccId) : Balance :=
  match s.voting.get a with
  | none => 0
  | some v => v.deposit

/-- When each operation succeeds. -/
def accepted (cfg : Cfg) (s : State) : Op → Prop
  | .vote a votes value =>
    1 ≤ votes.length ∧ votes.length ≤ 16 ∧
    votes.length ≤ s.candidates.length + s.members.length + s.runnersUp.length ∧
    s.bank.ed < value ∧
    canReserve s.bank a (cfg.base + cfg.factor * votes.length - votingDeposit s a)
  | .removeVoter a => ∃ v, s.voting.get a = some v
  | .submit a count hasId =>
    s.candidates.length ≤ count ∧ s.candidates.length ≤ cfg.maxCandidates ∧ hasId = true ∧
    ¬ stands s a ∧ canReserve s.bank a cfg.bond
  | .renounce a .member => a ∈ s.members.map Seat.who
  | .renounce a .runnerUp => a ∈ s.runnersUp.map Seat.who
  | .renounce a (.candidate count) => s.candidates.length ≤ count ∧ a ∈ s.candidates.map Prod.fst
  | .removeMember a _ _ _ => a ∈ s.members.map Seat.who
  | _ => True

/-- The votes of `b` after a successful operation. `free` is the free balance of `b` afterwards. -/
def votesAfter (cfg : Cfg) (s : State) (free : Balance) (b : AccId) : Op → Option Voter → Prop
  | .vote a votes value, r =>
    (b = a → r = some ⟨votes, min value free, cfg.base + cfg.factor * votes.length⟩) ∧
    (b ≠ a → r = s.voting.get b)
  | .removeVoter a, r => (b = a → r = none) ∧ (b ≠ a → r = s.voting.get b)
  | .cleanDefunct, r =>
    ((∃ v, s.voting.get b = some v ∧ ∀ c ∈ v.votes, ¬ stands s c) → r = none) ∧
    (¬ (∃ v, s.voting.get b = some v ∧ ∀ c ∈ v.votes, ¬ stands s c) → r = s.voting.get b)
  | _, r => r = s.voting.get b

/-- An election with winners `w`, in order of election: those with backing, the first of them become
members and the others runners-up, the worst of them first. Everybody keeps the deposit given before.
Nobody is candidate any more. -/
structure ElectedBy (cfg : Cfg) (s s' : State) (w : List (AccId × Nat)) : Prop where
  members : ∀ x, x ∈ s'.members ↔
    ∃ i n, (w.filter (fun p => decide (0 < p.2)))[i]? = some (x.who, n) ∧ i < cfg.desiredMembers ∧
      x.stake = cfg.toBalance n ∧ (x.who, x.deposit) ∈ seats s
  memberOrder : (s'.members.map Seat.who).Pairwise (· < ·)
  runnersUp : (s'.runnersUp.map (fun x => (x.who, x.stake))).reverse =
    ((w.filter (fun p => decide (0 < p.2))).drop cfg.desiredMembers).map (fun p => (p.1, cfg.toBalance p.2))
  runnerDeposits : ∀ x ∈ s'.runnersUp, (x.who, x.deposit) ∈ seats s
  candidates : s'.candidates = []
  rounds : s'.rounds = s.rounds + 1

/-- An election is held: somebody stands, there are not too many voters, and the computation gives a
result of different winners who stand, not more than there are seats. -/
def electionHeld (cfg : Cfg) (s : State) (res : Option (List (AccId × Nat))) (w : List (AccId × Nat)) :
    Prop :=
  (∃ a, stands s a) ∧ s.voting.keys.length ≤ cfg.maxVoters ∧ res = some w ∧
  (w.map Prod.fst).Nodup ∧ (∀ p ∈ w, stands s p.1) ∧ w.length ≤ cfg.desiredRunnersUp + cfg.desiredMembers

/-- Candidates, members and runners-up after a successful operation. Changes of members by renouncing
or removal are C72. -/
def listsAfter (cfg : Cfg) (s s' : State) : Op → Prop
  | .submit a _ _ =>
    (∀ c, c ∈ s'.candidates ↔ c = (a, cfg.bond) ∨ c ∈ s.candidates) ∧
    s'.members = s.members ∧ s'.runnersUp = s.runnersUp ∧ s'.rounds = s.rounds
  | .renounce a (.candidate _) =>
    s'.candidates = s.candidates.filter (fun c => decide (c.1 ≠ a)) ∧
    s'.members = s.members ∧ s'.runnersUp = s.runnersUp ∧ s'.rounds = s.rounds
  | .renounce a .runnerUp =>
    s'.runnersUp = s.runnersUp.filter (fun c => decide (c.who ≠ a)) ∧
    s'.members = s.members ∧ s'.candidates = s.candidates ∧ s'.rounds = s.rounds
  | .renounce _ .member => s'.candidates = s.candidates ∧ s'.rounds = s.rounds
  | .removeMember _ _ false _ => s'.candidates = s.candidates ∧ s'.rounds = s.rounds
  | .removeMember _ _ true _ => True
  | .block n res =>
    (∀ w, cfg.term ≠ 0 → n % cfg.term = 0 → electionHeld cfg s res w → ElectedBy cfg s s' w) ∧
    (¬ (cfg.term ≠ 0 ∧ n % cfg.term = 0 ∧ ∃ w, electionHeld cfg s res w) → s' = s)
  | _ =>
    s'.candidates = s.candidates ∧ s'.members = s.members ∧ s'.runnersUp = s.runnersUp ∧
    s'.rounds = s.rounds

/-! ### Acceptance -/

theorem reserve_iff (b : Bank) (a : AccId) (d : Balance) :
    (∃ b', b.reserve a d = .ok b') ↔ canReserve b a d := by
  unfold Bank.reserve canReserve
  by_cases h0 : d = 0
  · simp [h0]
  by_cases h1 : b.free a < d
  · simp [h0, h1, Nat.not_le.2 h1]
  by_cases h2 : b.free a - d < b.frozen a
  · rw [if_neg h0, if_neg h1, if_pos h2]
    exact ⟨fun ⟨_, h⟩ => (by cases h), fun h => (by omega)⟩
  by_cases h3 : b.free a - d < b.ed ∧ b.ed ≤ b.free a
  · rw [if_neg h0, if_neg h1, if_neg h2, if_pos h3]
    exact ⟨fun ⟨_, h⟩ => (by cases h), fun h => (by omega)⟩
  · rw [if_neg h0, if_neg h1, if_neg h2, if_neg h3]
    exact ⟨fun _ => by omega, fun _ => ⟨_, rfl⟩⟩

theorem attempt_done (s : State) (r : Except Err State) :
    (attempt s r).2 = .done ↔ ∃ s', r = .ok s' := by
  cases r with
  | ok s' => exact ⟨fun _ => ⟨s', rfl⟩, fun _ => rfl⟩
  | error e => exact ⟨fun h => (by cases h), fun ⟨_, h⟩ => (by cases h)⟩

theorem oldDeposit_eq (s : State) (a : AccId) : oldDeposit s a = votingDeposit s a := by
  unfold oldDeposit votingDeposit; cases s.voting.get a <;> rfl

theorem adjust_iff (b : Bank) (a : AccId) (old new : Balance) :
    (∃ b', adjustDeposit b a old new = .ok b') ↔ canReserve b a (new - old) := by
  unfold adjustDeposit
  by_cases h : old < new
  · rw [if_pos h, ← reserve_iff]
    cases b.reserve a (new - old) with
    | ok x => exact ⟨fun _ => ⟨x, rfl⟩, fun _ => ⟨x, rfl⟩⟩
    | error e => exact ⟨fun ⟨_, h⟩ => (by cases h), fun ⟨_, h⟩ => (by cases h)⟩
  · rw [if_neg h]
    refine ⟨fun _ => Or.inl (by omega), fun _ => ?_⟩
    split <;> exact ⟨_, rfl⟩

theorem vote_iff (cfg : Cfg) (s : State) (a : AccId) (vs : List AccId) (x : Balance) :
    (∃ s', vote cfg s a vs x = .ok s') ↔ accepted cfg s (.vote a vs x) := by
  show _ ↔ 1 ≤ vs.length ∧ vs.length ≤ 16 ∧ _
  rw [← oldDeposit_eq, ← adjust_iff]
  unfold vote maxVote
  by_cases h1 : 16 < vs.length
  · rw [if_pos h1]; exact ⟨fun ⟨_, h⟩ => (by cases h), fun h => absurd h.2.1 (by omega)⟩
  rw [if_neg h1]
  by_cases h2 : vs = []
  · rw [if_pos h2]
    subst h2
    exact ⟨fun ⟨_, h⟩ => (by cases h), fun h => absurd h.1 (by simp)⟩
  rw [if_neg h2]
  have hp : 1 ≤ vs.length := List.length_pos_iff.2 h2
  by_cases h3 : s.candidates.length + s.members.length + s.runnersUp.length = 0
  · rw [if_pos h3]; exact ⟨fun ⟨_, h⟩ => (by cases h), fun h => absurd h.2.2.1 (by omega)⟩
  rw [if_neg h3]
  by_cases h4 : s.candidates.length + s.members.length + s.runnersUp.length < vs.length
  · rw [if_pos h4]; exact ⟨fun ⟨_, h⟩ => (by cases h), fun h => absurd h.2.2.1 (by omega)⟩
  rw [if_neg h4]
  by_cases h5 : x ≤ s.bank.ed
  · rw [if_pos h5]; exact ⟨fun ⟨_, h⟩ => (by cases h), fun h => absurd h.2.2.2.1 (by omega)⟩
  rw [if_neg h5]
  unfold depositOf
  cases adjustDeposit s.bank a (oldDeposit s a) (cfg.base + cfg.factor * vs.length) with
  | ok b => exact ⟨fun _ => ⟨hp, by omega, by omega, by omega, b, rfl⟩, fun _ => ⟨_, rfl⟩⟩
  | error e => exact ⟨fun ⟨_, h⟩ => (by cases h), fun ⟨_, _, _, _, _, h⟩ => (by cases h)⟩

theorem submit_iff (cfg : Cfg) (s : State) (a : AccId) (n : Nat) (i : Bool) :
    (∃ s', submitCandidacy cfg s a n i = .ok s') ↔ accepted cfg s (.submit a n i) := by
  show _ ↔ _ ∧ _ ∧ _ ∧ _ ∧ _
  rw [← reserve_iff]
  unfold stands
  rw [← isCandidate_iff, ← isMember_iff, ← isRunnerUp_iff]
  unfold submitCandidacy
  by_cases h1 : n < s.candidates.length
  · rw [if_pos h1]; exact ⟨fun ⟨_, h⟩ => (by cases h), fun h => absurd h.1 (by omega)⟩
  rw [if_neg h1]
  by_cases h2 : cfg.maxCandidates < s.candidates.length
  · rw [if_pos h2]; exact ⟨fun ⟨_, h⟩ => (by cases h), fun h => absurd h.2.1 (by omega)⟩
  rw [if_neg h2]
  cases i with
  | false => simp
  | true =>
    cases hc : isCandidate s a with
    | true => simp
    | false =>
      cases hm : isMember s a with
      | true => simp
      | false =>
        cases hr : isRunnerUp s a with
        | true => simp
        | false =>
          simp only [Bool.false_eq_true, if_false, reduceCtorEq]
          cases s.bank.reserve a cfg.bond with
          | ok b => simp; omega
          | error e => simp

theorem find_iff {α : Type} (key : α → AccId) (l : List α) (a : AccId) :
    (∃ x, l.find? (fun m => decide (key m = a)) = some x) ↔ a ∈ l.map key := by
  cases h : l.find? (fun m => decide (key m = a)) with
  | none =>
    refine ⟨fun ⟨_, h⟩ => (by cases h), fun hm => ?_⟩
    obtain ⟨x, hx, rfl⟩ := List.mem_map.1 hm
    have := List.find?_eq_none.1 h x hx
    simp at this
  | some x =>
    refine ⟨fun _ => ?_, fun _ => ⟨x, rfl⟩⟩
    have h1 := List.find?_some h
    have h2 := List.mem_of_find?_eq_some h
    exact List.mem_map.2 ⟨x, h2, by simpa using h1⟩

theorem replace_iff (s : State) (a : AccId) (sl : Bool) :
    (∃ s', removeAndReplace s a sl = .ok s') ↔ a ∈ s.members.map Seat.who := by
  rw [← find_iff]
  unfold removeAndReplace
  cases s.members.find? (fun m => decide (m.who = a)) with
  | none => simp
  | some m => simp

/-- C98, acceptance. In any state, a call succeeds exactly under the listed conditions; otherwise
nothing changes. -/
theorem C98_accepted (cfg : Cfg) (s : State) (op : Op) :
    ((step cfg s op).2 = .done ↔ accepted cfg s op) ∧
    ((step cfg s op).2 ≠ .done → (step cfg s op).1 = s) := by
  constructor
  · cases op with
    | vote a v x => exact (attempt_done _ _).trans (vote_iff cfg s a v x)
    | removeVoter a =>
      refine (attempt_done _ _).trans ?_
      unfold removeVoter
      have := FMap.contains_iff s.voting a
      show _ ↔ ∃ v, s.voting.get a = some v
      cases hg : s.voting.get a with
      | none => simp_all
      | some v => simp_all
    | submit a n i => exact (attempt_done _ _).trans (submit_iff cfg s a n i)
    | renounce a r =>
      refine (attempt_done _ _).trans ?_
      cases r with
      | member =>
        show (∃ s', renounce s a .member = .ok s') ↔ a ∈ s.members.map Seat.who
        rw [← replace_iff s a false]
        unfold renounce
        cases removeAndReplace s a false <;> simp
      | runnerUp =>
        show (∃ s', renounce s a .runnerUp = .ok s') ↔ a ∈ s.runnersUp.map Seat.who
        rw [← find_iff]
        unfold renounce renounceRunnerUp
        cases s.runnersUp.find? (fun m => decide (m.who = a)) <;> simp
      | candidate n =>
        show (∃ s', renounce s a (.candidate n) = .ok s') ↔
          s.candidates.length ≤ n ∧ a ∈ s.candidates.map Prod.fst
        rw [← find_iff]
        unfold renounce renounceCandidate
        by_cases h : n < s.candidates.length
        · simp only [if_pos h]
          exact ⟨fun ⟨_, h⟩ => (by cases h), fun ⟨h, _⟩ => absurd h (by omega)⟩
        · simp only [if_neg h]
          cases s.candidates.find? (fun c => decide (c.1 = a)) with
          | none => simp
          | some c => simp; omega
    | removeMember a sl re res =>
      refine (attempt_done _ _).trans ?_
      show _ ↔ a ∈ s.members.map Seat.who
      rw [← replace_iff s a sl]
      unfold removeMember
      cases removeAndReplace s a sl <;> simp
    | cleanDefunct => exact ⟨fun _ => trivial, fun _ => rfl⟩
    | block n res => exact ⟨fun _ => trivial, fun _ => rfl⟩
    | external b o => exact ⟨fun _ => trivial, fun _ => rfl⟩
  · have h : ∀ r : Except Err State, (attempt s r).2 ≠ .done → (attempt s r).1 = s := by
      intro r; cases r with
      | ok s' => exact fun h => absurd rfl h
      | error e => exact fun _ => rfl
    cases op with
    | cleanDefunct => exact fun h => absurd rfl h
    | block n res => exact fun h => absurd rfl h
    | external b o => exact fun h => absurd rfl h
    | vote a v x => exact h _
    | removeVoter a => exact h _
    | submit a n i => exact h _
    | renounce a r => exact h _
    | removeMember a sl re res => exact h _

/-! ### Votes and locks -/

theorem removeAll_spec (l : List AccId) (s : State) :
    (∀ b, (b ∈ l → (l.foldl doRemoveVoter s).voting.get b = none) ∧
      (b ∉ l → (l.foldl doRemoveVoter s).voting.get b = s.voting.get b)) ∧
    (∀ b, (b ∈ l → (l.foldl doRemoveVoter s).lock.get b = none) ∧
      (b ∉ l → (l.foldl doRemoveVoter s).lock.get b = s.lock.get b)) ∧
    (l.foldl doRemoveVoter s).candidates = s.candidates ∧
    (l.foldl doRemoveVoter s).members = s.members ∧
    (l.foldl doRemoveVoter s).runnersUp = s.runnersUp ∧
    (l.foldl doRemoveVoter s).rounds = s.rounds := by
  induction l generalizing s with
  | nil => exact ⟨fun b => ⟨fun h => absurd h List.not_mem_nil, fun _ => rfl⟩,
      fun b => ⟨fun h => absurd h List.not_mem_nil, fun _ => rfl⟩, rfl, rfl, rfl, rfl⟩
  | cons a l ih =>
    obtain ⟨h1, h2, h3, h4, h5, h6⟩ := ih (doRemoveVoter s a)
    have e1 : ∀ b, (doRemoveVoter s a).voting.get b = (s.voting.erase a).get b := fun _ => rfl
    have e2 : ∀ b, (doRemoveVoter s a).lock.get b = (s.lock.erase a).get b := fun _ => rfl
    refine ⟨fun b => ⟨?_, ?_⟩, fun b => ⟨?_, ?_⟩, h3, h4, h5, h6⟩
    · intro hb
      by_cases hl : b ∈ l
      · exact (h1 b).1 hl
      · rw [List.foldl_cons, (h1 b).2 hl, e1]
        have : b = a := by rcases List.mem_cons.1 hb with h | h; exact h; exact absurd h hl
        subst this; exact FMap.get_erase_self _ _
    · intro hb
      have hb' := not_or.1 (fun h => hb (List.mem_cons.2 h))
      rw [List.foldl_cons, (h1 b).2 hb'.2, e1]
      exact FMap.get_erase_ne _ hb'.1
    · intro hb
      by_cases hl : b ∈ l
      · exact (h2 b).1 hl
      · rw [List.foldl_cons, (h2 b).2 hl, e2]
        have : b = a := by rcases List.mem_cons.1 hb with h | h; exact h; exact absurd h hl
        subst this; exact FMap.get_erase_self _ _
    · intro hb
      have hb' := not_or.1 (fun h => hb (List.mem_cons.2 h))
      rw [List.foldl_cons, (h2 b).2 hb'.2, e2]
      exact FMap.get_erase_ne _ hb'.1

theorem stands_iff (s : State) (a : AccId) :
    stands s a ↔ isMember s a = true ∨ isRunnerUp s a = true ∨ isCandidate s a = true := by
  unfold stands
  rw [isCandidate_iff, isMember_iff, isRunnerUp_iff]
  constructor
  · rintro (h | h | h)
    · exact Or.inr (Or.inr h)
    · exact Or.inl h
    · exact Or.inr (Or.inl h)
  · rintro (h | h | h)
    · exact Or.inr (Or.inl h)
    · exact Or.inr (Or.inr h)
    · exact Or.inl h

theorem mem_defunct (s : State) (b : AccId) :
    b ∈ defunct s ↔ ∃ v, s.voting.get b = some v ∧ ∀ c ∈ v.votes, ¬ stands s c := by
  unfold defunct isDefunct
  constructor
  · intro h
    obtain ⟨e, he, rfl⟩ := List.mem_map.1 h
    obtain ⟨h1, h2⟩ := List.mem_filter.1 he
    refine ⟨e.2, (FMap.mem_entries_iff s.voting e.1 e.2).1 h1, fun c hc => ?_⟩
    have := List.all_eq_true.1 h2 c hc
    rw [stands_iff]
    simp only [Bool.and_eq_true, Bool.not_eq_true'] at this
    simp [this.1.1, this.1.2, this.2]
  · rintro ⟨v, hv, h⟩
    refine List.mem_map.2 ⟨(b, v), List.mem_filter.2 ⟨(FMap.mem_entries_iff s.voting b v).2 hv, ?_⟩, rfl⟩
    refine List.all_eq_true.2 fun c hc => ?_
    have := h c hc
    rw [stands_iff] at this
    simp only [not_or, Bool.not_eq_true] at this
    simp [this.1, this.2.1, this.2.2]

/-- The state of a successful call. -/
theorem attempt_ok {s : State} {r : Except Err State} (h : (attempt s r).2 = .done) :
    r = .ok (attempt s r).1 := by
  cases r with
  | ok s' => rfl
  | error e => cases h

theorem vote_ok {cfg : Cfg} {s s' : State} {a : AccId} {vs : List AccId} {x : Balance}
    (h : vote cfg s a vs x = .ok s') :
    ∃ b, s' = recordVote { s with bank := b } a vs x (depositOf cfg vs.length) := by
  unfold vote at h
  split at h; · cases h
  split at h; · cases h
  split at h; · cases h
  split at h; · cases h
  split at h; · cases h
  split at h
  · cases h
  · cases h; exact ⟨_, rfl⟩

theorem recordVote_spec (s : State) (a : AccId) (vs : List AccId) (x n : Balance) :
    (recordVote s a vs x n).bank.accts = s.bank.accts ∧
    (recordVote s a vs x n).voting = s.voting.insert a ⟨vs, min x (s.bank.free a), n⟩ ∧
    (recordVote s a vs x n).lock =
      (if min x (s.bank.free a) = 0 then s.lock else s.lock.insert a (min x (s.bank.free a))) ∧
    (recordVote s a vs x n).candidates = s.candidates ∧ (recordVote s a vs x n).members = s.members ∧
    (recordVote s a vs x n).runnersUp = s.runnersUp ∧ (recordVote s a vs x n).rounds = s.rounds := by
  by_cases h : min x (s.bank.free a) = 0
  · simp only [recordVote, setLock, if_pos h, and_self]
  · simp only [recordVote, setLock, if_neg h, and_self]

theorem removeVoter_ok {s s' : State} {a : AccId} (h : removeVoter s a = .ok s') :
    s' = doRemoveVoter s a := by
  unfold removeVoter at h
  split at h
  · cases h; rfl
  · cases h

theorem submit_ok {cfg : Cfg} {s s' : State} {a : AccId} {n : Nat} {i : Bool}
    (h : submitCandidacy cfg s a n i = .ok s') :
    ∃ b, s' = { s with bank := b, candidates := insertBy Prod.fst (a, cfg.bond) s.candidates } := by
  unfold submitCandidacy at h
  split at h; · cases h
  split at h; · cases h
  split at h; · cases h
  split at h; · cases h
  split at h; · cases h
  split at h; · cases h
  split at h
  · cases h
  · cases h; exact ⟨_, rfl⟩

/-- What removing a member leaves unchanged. -/
theorem replace_frame {s s' : State} {a : AccId} {sl : Bool} (h : removeAndReplace s a sl = .ok s') :
    s'.voting = s.voting ∧ s'.lock = s.lock ∧ s'.candidates = s.candidates ∧ s'.rounds = s.rounds := by
  unfold removeAndReplace at h
  split at h
  · cases h
  · cases h; exact ⟨rfl, rfl, rfl, rfl⟩

theorem phragmen_frame (cfg : Cfg) (s : State) (res : Option (List (AccId × Nat))) :
    (doPhragmen cfg s res).voting = s.voting ∧ (doPhragmen cfg s res).lock = s.lock := by
  unfold doPhragmen
  split
  · exact ⟨rfl, rfl⟩
  split
  · exact ⟨rfl, rfl⟩
  split
  · exact ⟨rfl, rfl⟩
  split <;> exact ⟨rfl, rfl⟩

theorem renounce_frame {s s' : State} {a : AccId} {r : Renouncing} (h : renounce s a r = .ok s') :
    s'.voting = s.voting ∧ s'.lock = s.lock := by
  cases r with
  | member =>
    unfold renounce at h
    cases hr : removeAndReplace s a false with
    | error e => rw [hr] at h; cases h
    | ok t =>
      rw [hr] at h; cases h
      exact ⟨(replace_frame hr).1, (replace_frame hr).2.1⟩
  | runnerUp =>
    simp only [renounce, renounceRunnerUp] at h
    split at h
    · cases h
    · cases h; exact ⟨rfl, rfl⟩
  | candidate n =>
    simp only [renounce, renounceCandidate] at h
    split at h
    · cases h
    split at h
    · cases h
    · cases h; exact ⟨rfl, rfl⟩

theorem removeMember_frame {cfg : Cfg} {s s' : State} {a : AccId} {sl re : Bool}
    {res : Option (List (AccId × Nat))} (h : removeMember cfg s a sl re res = .ok s') :
    s'.voting = s.voting ∧ s'.lock = s.lock := by
  unfold removeMember at h
  cases hr : removeAndReplace s a sl with
  | error e => rw [hr] at h; cases h
  | ok t =>
    rw [hr] at h
    have hf := replace_frame hr
    cases h
    cases re with
    | false => exact ⟨hf.1, hf.2.1⟩
    | true => exact ⟨(phragmen_frame cfg t res).1.trans hf.1, (phragmen_frame cfg t res).2.trans hf.2.1⟩

theorem free_of_accts {b b' : Bank} (h : b.accts = b'.accts) (a : AccId) : b.free a = b'.free a := by
  unfold Bank.free Bank.acct; rw [h]

/-- C98, votes. After a successful operation the votes of each account are as listed: only voting,
removing the votes and the removal of defunct voters change them, elections leave them. -/
theorem C98_votes (cfg : Cfg) (s : State) (op : Op) (h : (step cfg s op).2 = .done) (b : AccId) :
    votesAfter cfg s ((step cfg s op).1.bank.free b) b op ((step cfg s op).1.voting.get b) := by
  cases op with
  | vote a vs x =>
    have hs := attempt_ok h
    obtain ⟨bk, hb⟩ := vote_ok hs
    obtain ⟨h1, h2, _⟩ := recordVote_spec { s with bank := bk } a vs x (depositOf cfg vs.length)
    have e : (step cfg s (.vote a vs x)).1 = _ := hb
    rw [e, h2, free_of_accts h1]
    refine ⟨fun hba => ?_, fun hba => ?_⟩
    · subst hba; exact FMap.get_insert_self _ _ _
    · exact FMap.get_insert_ne _ _ hba
  | removeVoter a =>
    have e : (step cfg s (.removeVoter a)).1 = _ := removeVoter_ok (attempt_ok h)
    rw [e]
    show (b = a → (s.voting.erase a).get b = none) ∧ (b ≠ a → (s.voting.erase a).get b = _)
    refine ⟨fun hba => ?_, fun hba => FMap.get_erase_ne _ hba⟩
    subst hba; exact FMap.get_erase_self _ _
  | submit a n i =>
    obtain ⟨bk, hb⟩ := submit_ok (attempt_ok h)
    have e : (step cfg s (.submit a n i)).1 = _ := hb
    rw [e]; exact rfl
  | renounce a r =>
    have := (renounce_frame (attempt_ok h)).1
    have e : (step cfg s (.renounce a r)).1.voting = s.voting := this
    rw [e]
    cases r <;> exact rfl
  | removeMember a sl re res =>
    have := (removeMember_frame (attempt_ok h)).1
    have e : (step cfg s (.removeMember a sl re res)).1.voting = s.voting := this
    rw [e]; exact rfl
  | cleanDefunct =>
    have hr := (removeAll_spec (defunct s) s).1 b
    rw [mem_defunct] at hr
    exact hr
  | block n res =>
    show (onInitialize cfg s n res).voting.get b = s.voting.get b
    unfold onInitialize
    split
    · rw [(phragmen_frame cfg s res).1]
    · rfl
  | external bk o => exact rfl

/-- C98, locks. The lock of the elections on an account is set by its vote, to the stake recorded
(unless that is zero), removed with the votes, and otherwise not touched. -/
theorem C98_locks (cfg : Cfg) (s : State) (op : Op) (h : (step cfg s op).2 = .done) (b : AccId) :
    match op with
    | .vote a _ x =>
      (b = a → 0 < min x ((step cfg s op).1.bank.free b) →
        (step cfg s op).1.lock.get b = some (min x ((step cfg s op).1.bank.free b))) ∧
      (b ≠ a → (step cfg s op).1.lock.get b = s.lock.get b)
    | .removeVoter a =>
      (b = a → (step cfg s op).1.lock.get b = none) ∧
      (b ≠ a → (step cfg s op).1.lock.get b = s.lock.get b)
    | .cleanDefunct =>
      ((∃ v, s.voting.get b = some v ∧ ∀ c ∈ v.votes, ¬ stands s c) →
        (step cfg s op).1.lock.get b = none) ∧
      (¬ (∃ v, s.voting.get b = some v ∧ ∀ c ∈ v.votes, ¬ stands s c) →
        (step cfg s op).1.lock.get b = s.lock.get b)
    | _ => (step cfg s op).1.lock.get b = s.lock.get b := by
  cases op with
  | vote a vs x =>
    have hs := attempt_ok h
    obtain ⟨bk, hb⟩ := vote_ok hs
    obtain ⟨h1, _, h2, _⟩ := recordVote_spec { s with bank := bk } a vs x (depositOf cfg vs.length)
    have e : (step cfg s (.vote a vs x)).1 = _ := hb
    simp only
    rw [e, h2, free_of_accts h1]
    refine ⟨fun hba => ?_, fun hba => ?_⟩
    · subst hba
      intro h0
      rw [if_neg (by omega)]
      exact FMap.get_insert_self _ _ _
    · split
      · rfl
      · exact FMap.get_insert_ne _ _ hba
  | removeVoter a =>
    have e : (step cfg s (.removeVoter a)).1 = _ := removeVoter_ok (attempt_ok h)
    simp only
    rw [e]
    show (b = a → (s.lock.erase a).get b = none) ∧ (b ≠ a → (s.lock.erase a).get b = _)
    refine ⟨fun hba => ?_, fun hba => FMap.get_erase_ne _ hba⟩
    subst hba; exact FMap.get_erase_self _ _
  | submit a n i =>
    obtain ⟨bk, hb⟩ := submit_ok (attempt_ok h)
    have e : (step cfg s (.submit a n i)).1 = _ := hb
    simp only; rw [e]
  | renounce a r =>
    have e : (step cfg s (.renounce a r)).1.lock = s.lock := (renounce_frame (attempt_ok h)).2
    simp only; rw [e]
  | removeMember a sl re res =>
    have e : (step cfg s (.removeMember a sl re res)).1.lock = s.lock :=
      (removeMember_frame (attempt_ok h)).2
    simp only; rw [e]
  | cleanDefunct =>
    have hr := (removeAll_spec (defunct s) s).2.1 b
    rw [mem_defunct] at hr
    exact hr
  | block n res =>
    show (onInitialize cfg s n res).lock.get b = s.lock.get b
    unfold onInitialize
    split
    · rw [(phragmen_frame cfg s res).2]
    · rfl
  | external bk o => exact rfl

/-! ### Lists -/

theorem eraseP_filter {α : Type} (key : α → AccId) (a : AccId) :
    ∀ l : List α, (l.map key).Nodup →
      l.eraseP (fun m => decide (key m = a)) = l.filter (fun m => decide (key m ≠ a))
  | [], _ => rfl
  | x :: xs, h => by
    rw [List.map_cons, List.nodup_cons] at h
    by_cases hx : key x = a
    · rw [List.eraseP_cons_of_pos (by simpa using hx), List.filter_cons_of_neg (by simpa using hx)]
      symm
      rw [List.filter_eq_self]
      intro y hy
      have : key y ≠ a := fun e => h.1 (List.mem_map.2 ⟨y, hy, e.trans hx.symm⟩)
      simpa using this
    · rw [List.eraseP_cons_of_neg (by simpa using hx), List.filter_cons_of_pos (by simpa using hx),
        eraseP_filter key a xs h.2]

theorem depositIn_mem {l : List (AccId × Balance)} (h : (l.map Prod.fst).Nodup) {a : AccId}
    (ha : a ∈ l.map Prod.fst) (d : Balance) : depositIn l a = d ↔ (a, d) ∈ l := by
  unfold depositIn
  obtain ⟨x, hx⟩ := (find_iff Prod.fst l a).2 ha
  have h1 : x.1 = a := by simpa using List.find?_some hx
  have h2 := List.mem_of_find?_eq_some hx
  rw [hx]
  constructor
  · rintro rfl
    rw [← h1]; exact h2
  · intro hd
    have := List.inj_on_of_nodup_map h h2 hd h1
    rw [this]; rfl

theorem nodup_parts {cfg : Cfg} {s : State} (hl : Lists cfg s) :
    (s.candidates.map Prod.fst).Nodup ∧ (s.runnersUp.map Seat.who).Nodup := by
  have h := hl.nodup
  unfold seats at h
  rw [List.map_append, List.map_append] at h
  have h1 := List.nodup_append.1 h
  have h2 := List.nodup_append.1 h1.2.1
  refine ⟨h1.1, ?_⟩
  have := h2.2.1
  rw [List.map_map] at this
  exact this

theorem backed_eq (cfg : Cfg) (w : List (AccId × Nat)) :
    backed cfg w = (w.filter (fun p => decide (0 < p.2))).map (fun p => (p.1, cfg.toBalance p.2)) := by
  unfold backed
  congr 1
  refine List.filter_congr fun p _ => ?_
  simp [Nat.pos_iff_ne_zero]

theorem mem_take_iff {α : Type} (l : List α) (n : Nat) (x : α) :
    x ∈ l.take n ↔ ∃ i, l[i]? = some x ∧ i < n := by
  rw [List.mem_iff_getElem?]
  constructor
  · rintro ⟨i, hi⟩
    rw [List.getElem?_take] at hi
    by_cases h : i < n
    · rw [if_pos h] at hi; exact ⟨i, hi, h⟩
    · rw [if_neg h] at hi; cases hi
  · rintro ⟨i, hi, h⟩
    exact ⟨i, by rw [List.getElem?_take, if_pos h]; exact hi⟩

theorem install_elected {cfg : Cfg} {s : State} {w : List (AccId × Nat)} (hl : Lists cfg s)
    (hv : validResult cfg s w) : ElectedBy cfg s (install cfg s w) w := by
  have hsub := hv.2.1
  have hin : ∀ p ∈ backed cfg w, p.1 ∈ (seats s).map Prod.fst := by
    intro p hp
    have := (backed_ids cfg w).subset (List.mem_map_of_mem hp)
    obtain ⟨q, hq, he⟩ := List.mem_map.1 this
    rw [← he]; exact hsub q hq
  refine ⟨fun x => ?_, (install_spec hl hv).1.membersSorted, ?_, fun x hx => ?_, rfl, rfl⟩
  · have e : (install cfg s w).members = toSeats (seats s) (newMembers cfg w) := rfl
    rw [e]
    unfold toSeats
    rw [List.mem_map]
    have hp : ∀ q, q ∈ newMembers cfg w ↔ q ∈ (backed cfg w).take cfg.desiredMembers :=
      fun q => (sortBy_perm Prod.fst _).mem_iff
    constructor
    · rintro ⟨q, hq, rfl⟩
      rw [hp, mem_take_iff] at hq
      obtain ⟨i, hi, hlt⟩ := hq
      have hq2 : q ∈ backed cfg w := List.mem_of_getElem? hi
      rw [backed_eq, List.getElem?_map] at hi
      cases hf : (w.filter (fun p => decide (0 < p.2)))[i]? with
      | none => rw [hf] at hi; cases hi
      | some p =>
        rw [hf] at hi
        have hi' : (p.1, cfg.toBalance p.2) = q := Option.some.inj hi
        subst hi'
        exact ⟨i, p.2, hf, hlt, rfl, (depositIn_mem hl.nodup (hin _ hq2) _).1 rfl⟩
    · rintro ⟨i, n, hi, hlt, hst, hd⟩
      refine ⟨(x.who, x.stake), (hp _).2 ?_, ?_⟩
      · rw [mem_take_iff]
        refine ⟨i, ?_, hlt⟩
        rw [backed_eq, List.getElem?_map, hi, hst]
        rfl
      · have : depositIn (seats s) x.who = x.deposit :=
          (depositIn_mem hl.nodup (List.mem_map.2 ⟨_, hd, rfl⟩) _).2 hd
        rw [this]
  · have e : (install cfg s w).runnersUp = toSeats (seats s) (newRunnersUp cfg w) := rfl
    rw [e]
    unfold toSeats newRunnersUp
    rw [List.map_map]
    simp only [Function.comp_def]
    rw [← List.map_reverse, List.reverse_reverse, backed_eq, ← List.map_drop]
    simp only [List.map_drop, List.map_map]
    rfl
  · have e : (install cfg s w).runnersUp = toSeats (seats s) (newRunnersUp cfg w) := rfl
    rw [e] at hx
    unfold toSeats newRunnersUp at hx
    obtain ⟨q, hq, rfl⟩ := List.mem_map.1 hx
    have hq2 : q ∈ backed cfg w := List.mem_of_mem_drop (List.mem_reverse.1 hq)
    exact (depositIn_mem hl.nodup (hin _ hq2) _).1 rfl

theorem seats_nil (s : State) : seats s = [] ↔ ¬ ∃ a, stands s a := by
  constructor
  · rintro h ⟨a, ha⟩
    have := (involved_iff s a).1 ha
    rw [h] at this
    cases this
  · intro h
    cases hs : seats s with
    | nil => rfl
    | cons x xs =>
      refine absurd ⟨x.1, ?_⟩ h
      exact (involved_iff s x.1).2 (by rw [hs]; exact List.mem_cons_self)

theorem validResult_iff (cfg : Cfg) (s : State) (w : List (AccId × Nat)) : validResult cfg s w ↔
    (w.map Prod.fst).Nodup ∧ (∀ p ∈ w, stands s p.1) ∧ w.length ≤ cfg.desiredRunnersUp + cfg.desiredMembers :=
  ⟨fun ⟨h1, h2, h3⟩ => ⟨h1, fun p hp => (involved_iff s p.1).2 (h2 p hp), h3⟩,
    fun ⟨h1, h2, h3⟩ => ⟨h1, fun p hp => (involved_iff s p.1).1 (h2 p hp), h3⟩⟩

theorem phragmen_spec {cfg : Cfg} {s : State} (hl : Lists cfg s) (res : Option (List (AccId × Nat))) :
    (∀ w, electionHeld cfg s res w → ElectedBy cfg s (doPhragmen cfg s res) w) ∧
    (¬ (∃ w, electionHeld cfg s res w) → doPhragmen cfg s res = s) := by
  constructor
  · rintro w ⟨h1, h2, h3, h4⟩
    have h4 := (validResult_iff cfg s w).2 h4
    have hne : seats s ≠ [] := fun h => (seats_nil s).1 h h1
    have e : doPhragmen cfg s res = install cfg s w := by
      unfold doPhragmen
      rw [if_neg hne, if_neg (by omega), h3]
      simp only
      rw [if_pos h4]
    rw [e]
    exact install_elected hl h4
  · intro h
    unfold doPhragmen
    split
    · rfl
    rename_i h1
    split
    · rfl
    rename_i h2
    cases res with
    | none => rfl
    | some w =>
      simp only
      split
      · rename_i h3
        exact absurd ⟨w, Classical.byContradiction fun hn => h1 ((seats_nil s).2 hn), by omega, rfl, (validResult_iff cfg s w).1 h3⟩ h
      · rfl

/-- C98, lists. After any history, candidates, members and runners-up change by a successful operation
as listed. At the end of each term an election is held if somebody stands, voters are not too many and
the computation succeeds; otherwise nothing happens at the start of a block. -/
theorem C98_lists {cfg : Cfg} {b : Bank} {o : AccId → Balance} {ms : List (AccId × Balance)}
    {s0 : State} (h0 : genesis cfg b o ms = some s0) (ops : List Op) (op : Op)
    (h : (step cfg (run cfg s0 ops).1 op).2 = .done) :
    listsAfter cfg (run cfg s0 ops).1 (step cfg (run cfg s0 ops).1 op).1 op := by
  have hl := run_lists (genesis_lists h0).1 ops
  revert h
  generalize (run cfg s0 ops).1 = s at hl ⊢
  intro h
  cases op with
  | vote a vs x =>
    obtain ⟨bk, hb⟩ := vote_ok (attempt_ok h)
    obtain ⟨_, _, _, h1, h2, h3, h4⟩ :=
      recordVote_spec { s with bank := bk } a vs x (depositOf cfg vs.length)
    have e : (step cfg s (.vote a vs x)).1 = _ := hb
    rw [e]
    exact ⟨h1, h2, h3, h4⟩
  | removeVoter a =>
    have e : (step cfg s (.removeVoter a)).1 = _ := removeVoter_ok (attempt_ok h)
    rw [e]
    exact ⟨rfl, rfl, rfl, rfl⟩
  | submit a n i =>
    obtain ⟨bk, hb⟩ := submit_ok (attempt_ok h)
    have e : (step cfg s (.submit a n i)).1 = _ := hb
    rw [e]
    refine ⟨fun c => ?_, rfl, rfl, rfl⟩
    rw [(insertBy_perm Prod.fst (a, cfg.bond) s.candidates).mem_iff, List.mem_cons]
  | renounce a r =>
    have hs := attempt_ok h
    cases r with
    | member =>
      unfold renounce at hs
      cases hr : removeAndReplace s a false with
      | error e => rw [hr] at hs; cases hs
      | ok t =>
        have e : (step cfg s (.renounce a .member)).1 = t := by
          simp only [step, renounce, hr, attempt]
        rw [e]
        exact ⟨(replace_frame hr).2.2.1, (replace_frame hr).2.2.2⟩
    | runnerUp =>
      cases hf : s.runnersUp.find? (fun m => decide (m.who = a)) with
      | none => simp only [renounce, renounceRunnerUp, hf] at hs; cases hs
      | some m =>
        have e : (step cfg s (.renounce a .runnerUp)).1.runnersUp =
            s.runnersUp.eraseP (fun m => decide (m.who = a)) := by
          simp only [step, renounce, renounceRunnerUp, hf, attempt]
        refine ⟨?_, ?_, ?_, ?_⟩
        · rw [e]; exact eraseP_filter Seat.who a _ (nodup_parts hl).2
        all_goals simp only [step, renounce, renounceRunnerUp, hf, attempt]
    | candidate n =>
      by_cases hn : n < s.candidates.length
      · simp only [renounce, renounceCandidate, if_pos hn] at hs; cases hs
      cases hf : s.candidates.find? (fun c => decide (c.1 = a)) with
      | none => simp only [renounce, renounceCandidate, if_neg hn, hf] at hs; cases hs
      | some m =>
        have e : (step cfg s (.renounce a (.candidate n))).1.candidates =
            s.candidates.eraseP (fun c => decide (c.1 = a)) := by
          simp only [step, renounce, renounceCandidate, if_neg hn, hf, attempt]
        refine ⟨?_, ?_, ?_, ?_⟩
        · rw [e]; exact eraseP_filter Prod.fst a _ (nodup_parts hl).1
        all_goals simp only [step, renounce, renounceCandidate, if_neg hn, hf, attempt]
  | removeMember a sl re res =>
    have hs := attempt_ok h
    cases re with
    | true => exact trivial
    | false =>
      unfold removeMember at hs
      cases hr : removeAndReplace s a sl with
      | error e => rw [hr] at hs; cases hs
      | ok t =>
        have e : (step cfg s (.removeMember a sl false res)).1 = t := by
          simp only [step, removeMember, hr, attempt, Bool.false_eq_true, if_false]
        rw [e]
        exact ⟨(replace_frame hr).2.2.1, (replace_frame hr).2.2.2⟩
  | cleanDefunct => exact (removeAll_spec (defunct s) s).2.2
  | block n res =>
    have hp := phragmen_spec hl res
    have e : (step cfg s (.block n res)).1 = onInitialize cfg s n res := rfl
    rw [e]
    unfold onInitialize
    refine ⟨fun w h1 h2 h3 => ?_, fun hn => ?_⟩
    · rw [if_pos ⟨h1, h2⟩]; exact hp.1 w h3
    · split
      · rename_i hc
        exact hp.2 fun hw => hn ⟨hc.1, hc.2, hw⟩
      · rfl
  | external bk o => exact ⟨rfl, rfl, rfl, rfl⟩

/-- C98, new election by root. Removing a member with a new election does the same as removing the
member without, and then an election as at the end of a term. -/
theorem C98_rerun (cfg : Cfg) (s : State) (a : AccId) (sl : Bool) (res res' : Option (List (AccId × Nat)))
    (n : Nat) (ht : cfg.term ≠ 0) (hn : n % cfg.term = 0)
    (h : (step cfg s (.removeMember a sl true res)).2 = .done) :
    (step cfg s (.removeMember a sl true res)).1 =
      (step cfg (step cfg s (.removeMember a sl false res')).1 (.block n res)).1 := by
  have hs := attempt_ok h
  unfold removeMember at hs
  cases hr : removeAndReplace s a sl with
  | error e => rw [hr] at hs; cases hs
  | ok t =>
    have e1 : (step cfg s (.removeMember a sl true res)).1 = doPhragmen cfg t res := by
      simp only [step, removeMember, hr, attempt, if_true]
    have e2 : (step cfg s (.removeMember a sl false res')).1 = t := by
      simp only [step, removeMember, hr, attempt, Bool.false_eq_true, if_false]
    rw [e1, e2]
    show _ = onInitialize cfg t n res
    unfold onInitialize
    rw [if_pos ⟨ht, hn⟩]

/-- Votes are accepted up to the number of those standing and not for a value of the existential
deposit; a fifth candidate with the right number announced is accepted, with too small a number not. -/
example :
    (step exCfg (run exCfg exState (exOps.take 4)).1 (.vote 5 [1, 2, 3, 4, 6] 300)).2 = .done ∧
    (step exCfg (run exCfg exState (exOps.take 4)).1 (.vote 5 [1, 2, 3, 4, 6, 6] 300)).2 = .failed .tooManyVotes ∧
    (step exCfg (run exCfg exState (exOps.take 4)).1 (.vote 5 [1] 1)).2 = .failed .lowBalance ∧
    (step exCfg (run exCfg exState (exOps.take 4)).1 (.submit 5 4 true)).2 = .done ∧
    (step exCfg (run exCfg exState (exOps.take 4)).1 (.submit 5 3 true)).2 = .failed .invalidWitnessData ∧
    (step exCfg (run exCfg exState (exOps.take 4)).1 (.submit 5 4 false)).2 = .failed .notHasEmailIdentity := by
  decide +kernel

/-- The election of the example meets the conditions; 6, who lost, is nobody's vote here; a voter of 6
alone is removed as defunct, the others stay. -/
example :
    let s := (run exCfg exState (exOps.take 7)).1
    s.voting.keys.length ≤ exCfg.maxVoters ∧ (6, 100) ∈ seats s ∧
    validResult exCfg s [(1, 350), (3, 200), (2, 90), (4, 50)] ∧
    (run exCfg exState exOps).1.rounds = 1 ∧
    (run exCfg exState exOps).1.members = [⟨1, 350, 100⟩, ⟨3, 200, 100⟩] ∧
    (run exCfg exState exOps).1.runnersUp = [⟨4, 50, 0⟩, ⟨2, 90, 100⟩] := by
  decide +kernel

example :
    let s := (run exCfg exState (exOps.take 7 ++ [.vote 6 [6] 40] ++ exOps.drop 7)).1
    (step exCfg s .cleanDefunct).1.voting.get 6 = none ∧
    (s.voting.get 6).isSome = true ∧
    ((step exCfg s .cleanDefunct).1.voting.get 5).isSome = true ∧
    (step exCfg s (.removeMember 1 true true (some [(2, 90)]))).1.members.map Seat.who = [2] := by
  decide +kernel

end Verif.Council
