import Verif.Bank

/-
Model of pallets/elections-phragmen/src/lib.rs: election of the council.

The runtime (runtime/Cargo.toml:69) links the upstream pallet of the same name at polkadot-v1.1.0; the
directory of the repository is a fork of it which also asks candidates for an identity with an email
address (lib.rs:437, 1195-1200) and has a fixed limit of votes (lib.rs:124). What is modelled here is
the code of the repository, with the constants of runtime/src/lib.rs:750-786 as parameters.

Trusted, since their source is not in the repository: pallet-balances (Verif/Bank.lean),
`sp_npos_elections::seq_phragmen` (only its contract is used: distinct winners, all of them among the
given candidates, at most as many as asked for) and of pallet-collective `change_members_sorted`
(stores the new list, forgets the prime), `set_prime` and `get_prime`.

Simplifications: amounts are unbounded naturals; weights and events are left out except for the result;
`binary_search` on a list sorted by account is modelled by its contract (finds the element exactly if
it is in the list, otherwise gives the position after all smaller ones; the lists are sorted by theorem
C54); the identity pallet only enters as a truth value given with the call; calls of root are separate
operations (no origin check).
-/

namespace Verif.Council

/-- `MAXIMUM_VOTE`, lib.rs:124. -/
def maxVote : Nat := 16

/-- Constants, runtime/src/lib.rs:750-786. -/
structure Cfg where
  /-- `CandidacyBond` -/
  bond : Balance
  /-- `VotingBondBase` -/
  base : Balance
  /-- `VotingBondFactor` -/
  factor : Balance
  desiredMembers : Nat
  desiredRunnersUp : Nat
  maxVoters : Nat
  maxCandidates : Nat
  /-- `TermDuration` -/
  term : Nat
  /-- `CurrencyToVote::to_currency` at the present issuance -/
  toBalance : Nat → Balance

/-- `SeatHolder`, lib.rs:167-177. -/
structure Seat where
  who : AccId
  stake : Balance
  deposit : Balance
deriving DecidableEq, Repr

/-- `Voter`, lib.rs:144-155. -/
structure Voter where
  votes : List AccId
  stake : Balance
  deposit : Balance
deriving DecidableEq, Repr

/-- Storage of the pallet (lib.rs:673-712), of the collective (members, prime), locks, balances. -/
structure State where
  members : List Seat := []
  /-- worst first -/
  runnersUp : List Seat := []
  candidates : List (AccId × Balance) := []
  voting : FMap AccId Voter := ∅
  rounds : Nat := 0
  /-- `Members` of pallet-collective -/
  council : List AccId := []
  /-- `Prime` of pallet-collective -/
  prime : Option AccId := none
  /-- lock of this pallet -/
  lock : FMap AccId Balance := ∅
  /-- largest lock of other pallets -/
  otherLock : AccId → Balance := fun _ => 0
  bank : Bank

/-- Insertion at the position given by the failed `binary_search_by` (lib.rs:439, 451; 745, 839-840). -/
def insertBy {α : Type} (key : α → AccId) (x : α) (l : List α) : List α :=
  l.takeWhile (fun y => decide (key y < key x)) ++ x :: l.dropWhile (fun y => decide (key y < key x))

/-- `sort_by(|i, j| i.0.cmp(&j.0))`, lib.rs:1063. -/
def sortBy {α : Type} (key : α → AccId) (l : List α) : List α := l.foldr (insertBy key) []

/-- `is_member`, lib.rs:902-904. -/
def isMember (s : State) (a : AccId) : Bool := s.members.any (fun m => decide (m.who = a))

/-- `is_runner_up`, lib.rs:907-909. -/
def isRunnerUp (s : State) (a : AccId) : Bool := s.runnersUp.any (fun m => decide (m.who = a))

/-- `is_candidate`, lib.rs:890-894. -/
def isCandidate (s : State) (a : AccId) : Bool := s.candidates.any (fun c => decide (c.1 = a))

/-- `deposit_of`, lib.rs:787-790. -/
def depositOf (cfg : Cfg) (n : Nat) : Balance := cfg.base + cfg.factor * n

/-- `set_lock`: the lock is written unless the amount is zero (pallet-balances). -/
def setLock (s : State) (a : AccId) (v : Balance) : State :=
  if v = 0 then s
  else { s with
    lock := s.lock.insert a v
    bank := { s.bank with
      frozen := fun x => if x = a then max v (s.otherLock a) else s.bank.frozen x } }

/-- `remove_lock`. -/
def removeLock (s : State) (a : AccId) : State :=
  { s with
    lock := s.lock.erase a
    bank := { s.bank with frozen := fun x => if x = a then s.otherLock a else s.bank.frozen x } }

inductive Err where
  | maximumVotesExceeded | noVotes | unableToVote | tooManyVotes | lowBalance | unableToPayBond
  | mustBeVoter | invalidWitnessData | tooManyCandidates | notHasEmailIdentity | duplicatedCandidate
  | memberSubmit | runnerUpSubmit | insufficientCandidateFunds | invalidRenouncing | notMember
deriving DecidableEq, Repr

/-- Deposit of the present votes of `a`; `Voting::get` is a `ValueQuery`, lib.rs:353-356. -/
def oldDeposit (s : State) (a : AccId) : Balance := ((s.voting.get a).map Voter.deposit).getD 0

/-- The three cases of lib.rs:357-373. -/
def adjustDeposit (b : Bank) (a : AccId) (old new : Balance) : Except Err Bank :=
  if old < new then
    match b.reserve a (new - old) with
    | .ok b' => .ok b'
    | .error _ => .error .unableToPayBond
  else if new < old then .ok (b.unreserve a (old - new))
  else .ok b

/-- Last part of `vote`, lib.rs:375-391. -/
def recordVote (s : State) (a : AccId) (votes : List AccId) (value new : Balance) : State :=
  let st := min value (s.bank.free a)
  let s1 := setLock s a st
  { s1 with voting := s1.voting.insert a ⟨votes, st, new⟩ }

/-- `vote`, lib.rs:320-392. -/
def vote (cfg : Cfg) (s : State) (a : AccId) (votes : List AccId) (value : Balance) :
    Except Err State :=
  if maxVote < votes.length then .error .maximumVotesExceeded
  else if votes = [] then .error .noVotes
  else if s.candidates.length + s.members.length + s.runnersUp.length = 0 then .error .unableToVote
  else if s.candidates.length + s.members.length + s.runnersUp.length < votes.length then
    .error .tooManyVotes
  else if value ≤ s.bank.ed then .error .lowBalance
  else
    match adjustDeposit s.bank a (oldDeposit s a) (depositOf cfg votes.length) with
    | .error e => .error e
    | .ok b => .ok (recordVote { s with bank := b } a votes value (depositOf cfg votes.length))

/-- `do_remove_voter`, lib.rs:943-953. -/
def doRemoveVoter (s : State) (a : AccId) : State :=
  let s1 := removeLock { s with voting := s.voting.erase a } a
  { s1 with bank := s1.bank.unreserve a (oldDeposit s a) }

/-- `remove_voter`, lib.rs:401-406. -/
def removeVoter (s : State) (a : AccId) : Except Err State :=
  if s.voting.contains a then .ok (doRemoveVoter s a) else .error .mustBeVoter

/-- `submit_candidacy`, lib.rs:425-454; `hasId` is `has_identity`, lib.rs:1195-1200. -/
def submitCandidacy (cfg : Cfg) (s : State) (a : AccId) (count : Nat) (hasId : Bool) :
    Except Err State :=
  if count < s.candidates.length then .error .invalidWitnessData
  else if cfg.maxCandidates < s.candidates.length then .error .tooManyCandidates
  else if hasId = false then .error .notHasEmailIdentity
  else if isCandidate s a then .error .duplicatedCandidate
  else if isMember s a then .error .memberSubmit
  else if isRunnerUp s a then .error .runnerUpSubmit
  else
    match s.bank.reserve a cfg.bond with
    | .error _ => .error .insufficientCandidateFunds
    | .ok b => .ok { s with bank := b, candidates := insertBy Prod.fst (a, cfg.bond) s.candidates }

/-- New member list, and the seat of the replacement, lib.rs:836-851. The runners-up are kept worst
first and `pop` takes the last. -/
def promote (members runners : List Seat) : List Seat :=
  match runners.getLast? with
  | none => members
  | some r => if members.any (fun m => decide (m.who = r.who)) then members else
      insertBy Seat.who r members

/-- The collective after `change_members_sorted` and `set_prime`, lib.rs:855-883: the prime stays
unless it is the removed member. -/
def keepPrime (p : Option AccId) (removed : AccId) : Option AccId :=
  match p with
  | none => none
  | some q => if q = removed then none else some q

/-- `remove_and_replace_member`, lib.rs:808-886. -/
def removeAndReplace (s : State) (a : AccId) (slash : Bool) : Except Err State :=
  match s.members.find? (fun m => decide (m.who = a)) with
  | none => .error .notMember
  | some m =>
    let rest := s.members.eraseP (fun m => decide (m.who = a))
    let b := if slash then (s.bank.slashReserved a m.deposit).1 else s.bank.unreserve a m.deposit
    let ms := promote rest s.runnersUp
    .ok { s with
      bank := b
      members := ms
      runnersUp := s.runnersUp.dropLast
      council := ms.map Seat.who
      prime := keepPrime s.prime a }

/-- `Renouncing`, lib.rs:133-141. -/
inductive Renouncing where
  | member | runnerUp | candidate (count : Nat)
deriving DecidableEq, Repr

/-- `renounce_candidacy` for a runner-up, lib.rs:488-500. -/
def renounceRunnerUp (s : State) (a : AccId) : Except Err State :=
  match s.runnersUp.find? (fun m => decide (m.who = a)) with
  | none => .error .invalidRenouncing
  | some m => .ok { s with
      runnersUp := s.runnersUp.eraseP (fun m => decide (m.who = a))
      bank := s.bank.unreserve a m.deposit }

/-- `renounce_candidacy` for a candidate, lib.rs:501-517. -/
def renounceCandidate (s : State) (a : AccId) (count : Nat) : Except Err State :=
  if count < s.candidates.length then .error .invalidWitnessData
  else
    match s.candidates.find? (fun c => decide (c.1 = a)) with
    | none => .error .invalidRenouncing
    | some c => .ok { s with
        candidates := s.candidates.eraseP (fun c => decide (c.1 = a))
        bank := s.bank.unreserve a c.2 }

/-- `renounce_candidacy`, lib.rs:480-520. -/
def renounce (s : State) (a : AccId) : Renouncing → Except Err State
  | .member =>
    match removeAndReplace s a false with
    | .error _ => .error .invalidRenouncing
    | .ok s' => .ok s'
  | .runnerUp => renounceRunnerUp s a
  | .candidate n => renounceCandidate s a n

/-- `candidates_and_deposit`, lib.rs:964-966, 922-929. -/
def seats (s : State) : List (AccId × Balance) :=
  s.candidates ++ (s.members.map (fun m => (m.who, m.deposit)) ++
    s.runnersUp.map (fun m => (m.who, m.deposit)))

/-- What one voter gives to `a` when the prime is chosen, lib.rs:1083-1096: for each position of `a` in
the votes, the stake times sixteen minus the position. -/
def bordaVotes (a : AccId) (stake : Balance) : Nat → List AccId → Nat
  | _, [] => 0
  | i, v :: vs => (if v = a then stake * (maxVote - i) else 0) + bordaVotes a stake (i + 1) vs

/-- Total weight of `a`, lib.rs:1079-1096. -/
def borda (voting : FMap AccId Voter) (a : AccId) : Nat :=
  voting.sum (fun _ v => bordaVotes a v.stake 0 v.votes)

/-- `max_by_key`: the last of the greatest elements, lib.rs:1100-1103. -/
def lastMax (f : AccId → Nat) : List AccId → Option AccId
  | [] => none
  | x :: xs =>
    match lastMax f xs with
    | none => some x
    | some y => if f x ≤ f y then some y else some x

/-- Slashing of those who lost, lib.rs:1124-1136. -/
def slashLosers (b : Bank) (keep : List AccId) : List (AccId × Balance) → Bank
  | [] => b
  | (c, d) :: r =>
    slashLosers (if keep.contains c then b else (b.slashReserved c d).1) keep r

/-- `deposit_of_candidate`, lib.rs:1139-1147. -/
def depositIn (l : List (AccId × Balance)) (a : AccId) : Balance :=
  ((l.find? (fun c => decide (c.1 = a))).map Prod.snd).getD 0

/-- Winners with backing, in order of election, lib.rs:1037-1047. -/
def backed (cfg : Cfg) (winners : List (AccId × Nat)) : List (AccId × Balance) :=
  (winners.filter (fun w => decide (w.2 ≠ 0))).map (fun w => (w.1, cfg.toBalance w.2))

/-- New seats, lib.rs:1151-1173. -/
def toSeats (l : List (AccId × Balance)) (ws : List (AccId × Balance)) : List Seat :=
  ws.map (fun w => ⟨w.1, w.2, depositIn l w.1⟩)

/-- New members, sorted by account, lib.rs:1055-1063. -/
def newMembers (cfg : Cfg) (winners : List (AccId × Nat)) : List (AccId × Balance) :=
  sortBy Prod.fst ((backed cfg winners).take cfg.desiredMembers)

/-- New runners-up, worst first, lib.rs:1066-1067. -/
def newRunnersUp (cfg : Cfg) (winners : List (AccId × Nat)) : List (AccId × Balance) :=
  ((backed cfg winners).drop cfg.desiredMembers).reverse

/-- Effect of a successful election, lib.rs:1020-1181. -/
def install (cfg : Cfg) (s : State) (winners : List (AccId × Nat)) : State :=
  let l := seats s
  let ms := newMembers cfg winners
  let rs := newRunnersUp cfg winners
  { s with
    bank := slashLosers s.bank (ms.map Prod.fst ++ rs.map Prod.fst) l
    members := toSeats l ms
    runnersUp := toSeats l rs
    candidates := []
    council := ms.map Prod.fst
    prime := lastMax (borda s.voting) (ms.map Prod.fst)
    rounds := s.rounds + 1 }

/-- Contract of `seq_phragmen` (not in the repository): winners are distinct, among the candidates and
at most as many as requested. -/
def validResult (cfg : Cfg) (s : State) (winners : List (AccId × Nat)) : Prop :=
  (winners.map Prod.fst).Nodup ∧ (∀ w ∈ winners, w.1 ∈ (seats s).map Prod.fst) ∧
  winners.length ≤ cfg.desiredRunnersUp + cfg.desiredMembers

instance (cfg : Cfg) (s : State) (w : List (AccId × Nat)) : Decidable (validResult cfg s w) := by
  unfold validResult; infer_instance

/-- `do_phragmen`, lib.rs:959-1193. `res` is what `seq_phragmen` returns (`none` for an error); a
result outside of its contract is excluded by treating it as an error. -/
def doPhragmen (cfg : Cfg) (s : State) (res : Option (List (AccId × Nat))) : State :=
  if seats s = [] then s
  else if cfg.maxVoters < s.voting.keys.length then s
  else
    match res with
    | none => s
    | some winners => if validResult cfg s winners then install cfg s winners else s

/-- `remove_member`, lib.rs:546-564. -/
def removeMember (cfg : Cfg) (s : State) (a : AccId) (slash rerun : Bool)
    (res : Option (List (AccId × Nat))) : Except Err State :=
  match removeAndReplace s a slash with
  | .error e => .error e
  | .ok s' => .ok (if rerun then doPhragmen cfg s' res else s')

/-- `is_defunct_voter`, lib.rs:936-940. -/
def isDefunct (s : State) (votes : List AccId) : Bool :=
  votes.all (fun v => !isMember s v && !isRunnerUp s v && !isCandidate s v)

/-- Accounts `clean_defunct_voters` removes, lib.rs:584-585. -/
def defunct (s : State) : List AccId :=
  (s.voting.entries.filter (fun e => isDefunct s e.2.votes)).map Prod.fst

/-- `clean_defunct_voters`, lib.rs:578-589. -/
def cleanDefunct (s : State) : State := (defunct s).foldl doRemoveVoter s

/-- `on_initialize`, lib.rs:279-286. -/
def onInitialize (cfg : Cfg) (s : State) (n : Nat) (res : Option (List (AccId × Nat))) : State :=
  if cfg.term ≠ 0 ∧ n % cfg.term = 0 then doPhragmen cfg s res else s

/-- Genesis, lib.rs:727-781: at most the desired number of members, each with enough free balance, no
duplicates (otherwise the node does not start: `none`). With `InitializeMembers = ()`
(runtime/src/lib.rs:772) nothing is reported to the collective. -/
def genesis (cfg : Cfg) (b : Bank) (other : AccId → Balance) (ms : List (AccId × Balance)) :
    Option State :=
  if ms.length ≤ cfg.desiredMembers ∧ (∀ m ∈ ms, m.2 ≤ b.free m.1) ∧ (ms.map Prod.fst).Nodup then
    some {
      members := ms.foldl (fun l m => insertBy Seat.who ⟨m.1, m.2, 0⟩ l) []
      voting := ms.foldl (fun v m => v.insert m.1 ⟨[m.1], m.2, 0⟩) ∅
      otherLock := other
      bank := { b with frozen := other } }
  else none

/-- Everything that happens. -/
inductive Op where
  | vote (a : AccId) (votes : List AccId) (value : Balance)
  | removeVoter (a : AccId)
  | submit (a : AccId) (count : Nat) (hasId : Bool)
  | renounce (a : AccId) (r : Renouncing)
  /-- by root -/
  | removeMember (a : AccId) (slash rerun : Bool) (res : Option (List (AccId × Nat)))
  /-- by root -/
  | cleanDefunct
  /-- start of block `n` -/
  | block (n : Nat) (res : Option (List (AccId × Nat)))
  /-- balances and locks of other pallets change -/
  | external (b : Bank) (other : AccId → Balance)

inductive Out where
  | done
  | failed (e : Err)
deriving DecidableEq, Repr

/-- Extrinsics are transactional. -/
def attempt (s : State) : Except Err State → State × Out
  | .ok s' => (s', .done)
  | .error e => (s, .failed e)

def step (cfg : Cfg) (s : State) : Op → State × Out
  | .vote a v x => attempt s (vote cfg s a v x)
  | .removeVoter a => attempt s (removeVoter s a)
  | .submit a n i => attempt s (submitCandidacy cfg s a n i)
  | .renounce a r => attempt s (renounce s a r)
  | .removeMember a sl re res => attempt s (removeMember cfg s a sl re res)
  | .cleanDefunct => (cleanDefunct s, .done)
  | .block n res => (onInitialize cfg s n res, .done)
  | .external b other =>
    ({ s with
        bank := { b with frozen := fun a => max ((s.lock.get a).getD 0) (other a) }
        otherLock := other }, .done)

/-- A history, with the state before each operation. -/
def run (cfg : Cfg) (s : State) : List Op → State × List (State × Op × Out)
  | [] => (s, [])
  | op :: ops =>
    let r := step cfg s op
    let t := run cfg r.1 ops
    (t.1, (s, op, r.2) :: t.2)

end Verif.Council
