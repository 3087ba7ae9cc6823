import Verif.Basic
import Mathlib.Data.List.Induction
import Mathlib.Data.List.Nodup
import Mathlib.Logic.Basic

/-
The council and the technical committee as collectives: motions, votes, decisions.

pallet-collective is a library (used at runtime/src/lib.rs:734-746 and 794-806); the definitions below follow its version of
polkadot-v1.1.0 and are part of the trusted base. Of the repository: the parameters and `PrimeDefaultVote`.

Simplifications: lengths and weights enter as truth values given with the call (`fits`); the order in which votes are listed is left out;
hashes are an arbitrary function; the call of a motion is a number and does not change the collective itself (calls that do need root or
another origin than the collective's own).
-/

namespace Verif.Collective

/-- Parameters, runtime/src/lib.rs:728-746, 788-806. -/
structure Cfg where
  /-- `MotionDuration` -/
  duration : Nat
  /-- `MaxProposals` -/
  maxProposals : Nat
  /-- `T::Hashing::hash_of` of a call -/
  hash : Nat → Nat

/-- `Votes` of pallet-collective (library; instances at runtime/src/lib.rs:734, 794). -/
structure Motion where
  index : Nat
  threshold : Nat
  ayes : List AccId
  nays : List AccId
  stop : Nat
deriving DecidableEq, Repr

/-- Storage of an instance of pallet-collective, runtime/src/lib.rs:734, 794. -/
structure State where
  now : Nat := 0
  members : List AccId := []
  prime : Option AccId := none
  /-- hashes -/
  proposals : List Nat := []
  voting : FMap Nat Motion := ∅
  proposalOf : FMap Nat Nat := ∅
  count : Nat := 0

/-- `RawOrigin` of pallet-collective, runtime/src/lib.rs:735, 795. -/
inductive Origin where
  | member (who : AccId)
  | members (ayes seats : Nat)
deriving DecidableEq, Repr

inductive Op where
  /-- any time passes -/
  | pass (blocks : Nat)
  | execute (who : AccId) (call : Nat) (fits : Bool)
  | propose (who : AccId) (threshold call : Nat) (fits : Bool)
  | vote (who : AccId) (h index : Nat) (approve : Bool)
  /-- by anybody -/
  | close (h index : Nat) (fits : Bool)
  /-- by root -/
  | disapprove (h : Nat)
  /-- `change_members_sorted` with the difference of the two lists and `set_prime`: what elections and membership pallets report -/
  | change (old new : List AccId) (prime : Option AccId)
  /-- `set_members`, by root -/
  | setMembers (new : List AccId) (prime : Option AccId)

inductive Out where
  | failed
  | done
  | proposed (h index : Nat)
  /-- the call ran with this origin -/
  | dispatched (o : Origin) (call : Nat)
  /-- a subtraction below zero: panics or wraps around -/
  | underflow
deriving DecidableEq, Repr

/-- Without the votes of some accounts. -/
def Motion.without (v : Motion) (out : List AccId) : Motion :=
  { v with ayes := v.ayes.filter (fun a => decide (a ∉ out)), nays := v.nays.filter (fun a => decide (a ∉ out)) }

/-- `change_members_sorted` (library; called at pallets/elections-phragmen/src/lib.rs:860-872, 1110-1118): votes of those who leave are
removed from all motions, the new list is stored, the prime forgotten. -/
def changeMembers (s : State) (old new : List AccId) : State :=
  let out := old.filter (fun a => decide (a ∉ new))
  { s with
    voting := s.proposals.foldl (fun m h => match m.get h with
      | some v => m.insert h (v.without out)
      | none => m) s.voting
    members := new
    prime := none }

/-- `do_propose_proposed` (library, runtime/src/lib.rs:734, 794), after the checks. -/
def openMotion (cfg : Cfg) (s : State) (threshold call : Nat) : State :=
  { s with
    proposals := s.proposals ++ [cfg.hash call]
    count := s.count + 1
    proposalOf := s.proposalOf.insert (cfg.hash call) call
    voting := s.voting.insert (cfg.hash call) ⟨s.count, threshold, [], [], s.now + cfg.duration⟩ }

/-- `propose` (library, runtime/src/lib.rs:734, 794). -/
def propose (cfg : Cfg) (s : State) (who : AccId) (threshold call : Nat) (fits : Bool) : State × Out :=
  if who ∉ s.members then (s, .failed)
  else if fits = false ∨ s.proposalOf.contains (cfg.hash call) = true then (s, .failed)
  else if threshold < 2 then (s, .dispatched (.members 1 s.members.length) call)
  else if cfg.maxProposals ≤ s.proposals.length then (s, .failed)
  else (openMotion cfg s threshold call, .proposed (cfg.hash call) s.count)

/-- The vote added to a motion, `do_vote` (library, runtime/src/lib.rs:734, 794); `none` for a repeated vote. -/
def Motion.vote (v : Motion) (who : AccId) (approve : Bool) : Option Motion :=
  if approve then
    if who ∈ v.ayes then none else some { v with ayes := v.ayes ++ [who], nays := v.nays.erase who }
  else
    if who ∈ v.nays then none else some { v with nays := v.nays ++ [who], ayes := v.ayes.erase who }

/-- `vote` (library, runtime/src/lib.rs:734, 794). -/
def vote (s : State) (who : AccId) (h index : Nat) (approve : Bool) : State × Out :=
  if who ∉ s.members then (s, .failed)
  else
    match s.voting.get h with
    | none => (s, .failed)
    | some v =>
      if v.index ≠ index then (s, .failed)
      else
        match v.vote who approve with
        | none => (s, .failed)
        | some v' => ({ s with voting := s.voting.insert h v' }, .done)

/-- `remove_proposal` (library, runtime/src/lib.rs:734, 794). -/
def remove (s : State) (h : Nat) : State :=
  { s with
    proposalOf := s.proposalOf.erase h
    voting := s.voting.erase h
    proposals := s.proposals.filter (fun x => decide (x ≠ h)) }

/-- `validate_and_get_proposal` and `do_approve_proposal` (library, runtime/src/lib.rs:734, 794). -/
def approve (s : State) (h yes : Nat) (fits : Bool) : State × Out :=
  match s.proposalOf.get h with
  | none => (s, .failed)
  | some call => if fits then (remove s h, .dispatched (.members yes s.members.length) call) else (s, .failed)

/-- `PrimeDefaultVote`, runtime/src/lib.rs:741, 801: those who have not voted vote like the prime. -/
def primeAye (s : State) (v : Motion) : Bool :=
  match s.prime with
  | none => false
  | some p => decide (p ∈ v.ayes)

/-- `do_close` (library, runtime/src/lib.rs:734, 794). -/
def close (s : State) (h index : Nat) (fits : Bool) : State × Out :=
  match s.voting.get h with
  | none => (s, .failed)
  | some v =>
    if v.index ≠ index then (s, .failed)
    else if v.threshold ≤ v.ayes.length then approve s h v.ayes.length fits
    else if s.members.length - v.nays.length < v.threshold then (remove s h, .done)
    else if s.now < v.stop then (s, .failed)
    else if s.members.length < v.ayes.length + v.nays.length then (s, .underflow)
    else
      let silent := s.members.length - (v.ayes.length + v.nays.length)
      let yes := if primeAye s v then v.ayes.length + silent else v.ayes.length
      if v.threshold ≤ yes then approve s h yes fits else (remove s h, .done)

/-- One operation. -/
def step (cfg : Cfg) (s : State) : Op → State × Out
  | .pass n => ({ s with now := s.now + n }, .done)
  | .execute who call fits => if who ∈ s.members ∧ fits = true then (s, .dispatched (.member who) call) else (s, .failed)
  | .propose who t call fits => propose cfg s who t call fits
  | .vote who h i a => vote s who h i a
  | .close h i fits => close s h i fits
  | .disapprove h => (remove s h, .done)
  | .change old new p => ({ changeMembers s old new with prime := p }, .done)
  | .setMembers new p => ({ changeMembers s s.members new with prime := p }, .done)

/-- A history, with the state before each operation. -/
def run (cfg : Cfg) (s : State) : List Op → State × List (State × Op × Out)
  | [] => (s, [])
  | op :: ops =>
    let r := step cfg s op
    let t := run cfg r.1 ops
    (t.1, (s, op, r.2) :: t.2)

theorem run_append (cfg : Cfg) (s : State) (l r : List Op) :
    run cfg s (l ++ r) = ((run cfg (run cfg s l).1 r).1, (run cfg s l).2 ++ (run cfg (run cfg s l).1 r).2) := by
  induction l generalizing s with
  | nil => rfl
  | cons op l ih => simp only [List.cons_append, run, ih]

theorem run_snoc (cfg : Cfg) (s : State) (l : List Op) (op : Op) :
    run cfg s (l ++ [op]) =
      ((step cfg (run cfg s l).1 op).1, (run cfg s l).2 ++ [((run cfg s l).1, op, (step cfg (run cfg s l).1 op).2)]) := by
  rw [run_append]; rfl

/-! ### What counts as a vote -/

/-- How an event changes the vote of an account on a motion: the latest successful vote counts, until the account leaves. -/
def heard (h index : Nat) (m : AccId) (acc : Option Bool) : State × Op × Out → Option Bool
  | (_, .vote who h' i a, .done) => if who = m ∧ h' = h ∧ i = index then some a else acc
  | (_, .change _ new _, _) => if m ∈ new then acc else none
  | (_, .setMembers new _, _) => if m ∈ new then acc else none
  | _ => acc

/-- The vote of an account on a motion, from the history alone. -/
def voteOf (t : List (State × Op × Out)) (h index : Nat) (m : AccId) : Option Bool := t.foldl (heard h index m) none

/-- Members that have voted so (or not at all) on a motion. -/
def voters (t : List (State × Op × Out)) (members : List AccId) (h index : Nat) (x : Option Bool) : List AccId :=
  members.filter fun m => decide (voteOf t h index m = x)

/-- An open motion: number, threshold, call, end of the voting period. -/
structure Pending where
  index : Nat
  threshold : Nat
  call : Nat
  stop : Nat
deriving DecidableEq, Repr

/-- How an event changes the motion open under a hash. -/
def follow (cfg : Cfg) (h : Nat) (acc : Option Pending) : State × Op × Out → Option Pending
  | (s, .propose _ th call _, .proposed h' i) => if h' = h then some ⟨i, th, call, s.now + cfg.duration⟩ else acc
  | (_, .close h' _ _, .done) => if h' = h then none else acc
  | (_, .close h' _ _, .dispatched _ _) => if h' = h then none else acc
  | (_, .disapprove h', _) => if h' = h then none else acc
  | _ => acc

/-- The motion open under a hash, from the history alone: proposed and not yet decided or struck. -/
def pendingOf (cfg : Cfg) (t : List (State × Op × Out)) (h : Nat) : Option Pending := t.foldl (follow cfg h) none

/-- The motion with this hash and number was decided by this event. -/
def Decides (h index : Nat) (e : State × Op × Out) : Prop :=
  ∃ fits, e.2.1 = .close h index fits ∧ (e.2.2 = .done ∨ ∃ o call, e.2.2 = .dispatched o call)

/-- Reports to the collective start from its actual list and name nobody twice. -/
def Faithful (e : State × Op × Out) : Prop :=
  match e.2.1 with
  | .change old new _ => (∀ m ∈ e.1.members, m ∈ old) ∧ new.Nodup
  | .setMembers new _ => new.Nodup
  | _ => True

/-- The start: any members, no motions yet. -/
def start (now : Nat) (members : List AccId) (prime : Option AccId) : State := { now := now, members := members, prime := prime }

/-- Invariant of histories. -/
structure Inv (cfg : Cfg) (t : List (State × Op × Out)) (s : State) : Prop where
  members : s.members.Nodup
  listed : ∀ h v, s.voting.get h = some v → h ∈ s.proposals
  index : ∀ h v, s.voting.get h = some v → v.index < s.count
  distinct : ∀ h v h' v', s.voting.get h = some v → s.voting.get h' = some v' → v.index = v'.index → h = h'
  ayes : ∀ h v, s.voting.get h = some v → v.ayes.Nodup ∧ ∀ m, m ∈ v.ayes ↔ (m ∈ s.members ∧ voteOf t h v.index m = some true)
  nays : ∀ h v, s.voting.get h = some v → v.nays.Nodup ∧ ∀ m, m ∈ v.nays ↔ (m ∈ s.members ∧ voteOf t h v.index m = some false)
  fresh : ∀ h i m, s.count ≤ i → voteOf t h i m = none
  absent : ∀ h i m, m ∉ s.members → voteOf t h i m = none
  origin : ∀ h v, s.voting.get h = some v → ∃ s' who call, (s', Op.propose who v.threshold call true, Out.proposed h v.index) ∈ t ∧
    who ∈ s'.members ∧ v.stop = s'.now + cfg.duration ∧ s.proposalOf.get h = some call ∧ cfg.hash call = h ∧ 2 ≤ v.threshold
  proposed : ∀ h call, s.proposalOf.get h = some call → (s.voting.get h).isSome
  pending : ∀ h, pendingOf cfg t h =
    (s.voting.get h).bind fun v => (s.proposalOf.get h).map fun c => ⟨v.index, v.threshold, c, v.stop⟩
  closed : ∀ h i, (∃ e ∈ t, Decides h i e) → i < s.count ∧ ∀ v, s.voting.get h = some v → v.index ≠ i

theorem voteOf_snoc (t : List (State × Op × Out)) (e : State × Op × Out) (h i : Nat) (m : AccId) :
    voteOf (t ++ [e]) h i m = heard h i m (voteOf t h i m) e := by
  unfold voteOf; rw [List.foldl_append]; rfl

theorem pendingOf_snoc (cfg : Cfg) (t : List (State × Op × Out)) (e : State × Op × Out) (h : Nat) :
    pendingOf cfg (t ++ [e]) h = follow cfg h (pendingOf cfg t h) e := by
  unfold pendingOf; rw [List.foldl_append]; rfl

theorem decides_snoc {t : List (State × Op × Out)} {e : State × Op × Out} {h i : Nat} (hx : ∃ x ∈ t ++ [e], Decides h i x) :
    (∃ x ∈ t, Decides h i x) ∨ Decides h i e := by
  obtain ⟨x, h1, h2⟩ := hx
  rcases List.mem_append.1 h1 with h3 | h3
  · exact Or.inl ⟨x, h3, h2⟩
  · rw [List.mem_singleton] at h3; subst h3; exact Or.inr h2

theorem Inv.same {cfg : Cfg} {t : List (State × Op × Out)} {s s' : State} (hi : Inv cfg t s) (e : State × Op × Out)
    (hq : ∀ h i m, heard h i m (voteOf t h i m) e = voteOf t h i m) (hm : s'.members = s.members)
    (hp : s'.proposals = s.proposals) (hv : s'.voting = s.voting) (ho : s'.proposalOf = s.proposalOf) (hc : s'.count = s.count)
    (hf : ∀ h, follow cfg h (pendingOf cfg t h) e = pendingOf cfg t h) (hd : ∀ h i, ¬ Decides h i e) :
    Inv cfg (t ++ [e]) s' := by
  have hq' : ∀ h i m, voteOf (t ++ [e]) h i m = voteOf t h i m := fun h i m => by rw [voteOf_snoc, hq]
  refine ⟨hm ▸ hi.members, ?_, ?_, ?_, ?_, ?_, ?_, ?_, ?_, ?_, ?_, ?_⟩
  · rw [hv, hp]; exact hi.listed
  · rw [hv, hc]; exact hi.index
  · rw [hv]; exact hi.distinct
  · rw [hv, hm]; simp only [hq']; exact hi.ayes
  · rw [hv, hm]; simp only [hq']; exact hi.nays
  · rw [hc]; simp only [hq']; exact hi.fresh
  · rw [hm]; simp only [hq']; exact hi.absent
  · rw [hv, ho]
    intro h v hg
    obtain ⟨s0, who, call, h1, h2⟩ := hi.origin h v hg
    exact ⟨s0, who, call, List.mem_append_left _ h1, h2⟩
  · rw [hv, ho]; exact hi.proposed
  · intro h; rw [pendingOf_snoc, hf, hv, ho]; exact hi.pending h
  · intro h i hx
    rw [hv, hc]
    rcases decides_snoc hx with h1 | h1
    · exact hi.closed h i h1
    · exact absurd h1 (hd h i)

theorem Inv.remove {cfg : Cfg} {t : List (State × Op × Out)} {s : State} (hi : Inv cfg t s) (e : State × Op × Out) (h : Nat)
    (hq : ∀ h i m, heard h i m (voteOf t h i m) e = voteOf t h i m)
    (hf : ∀ h', follow cfg h' (pendingOf cfg t h') e = if h = h' then none else pendingOf cfg t h')
    (hd : ∀ h' i, Decides h' i e → h' = h ∧ i < s.count) : Inv cfg (t ++ [e]) (Collective.remove s h) := by
  have hq' : ∀ h i m, voteOf (t ++ [e]) h i m = voteOf t h i m := fun h i m => by rw [voteOf_snoc, hq]
  have hg : ∀ h' v, (Collective.remove s h).voting.get h' = some v → h' ≠ h ∧ s.voting.get h' = some v := by
    intro h' v hv
    by_cases hh : h' = h
    · subst hh
      simp only [Collective.remove, FMap.get_erase_self] at hv
      cases hv
    · simp only [Collective.remove] at hv
      rw [FMap.get_erase_ne _ hh] at hv
      exact ⟨hh, hv⟩
  refine ⟨hi.members, ?_, ?_, ?_, ?_, ?_, ?_, ?_, ?_, ?_, ?_, ?_⟩
  · intro h' v hv
    obtain ⟨h1, h2⟩ := hg h' v hv
    simp only [Collective.remove, List.mem_filter, decide_eq_true_eq]
    exact ⟨hi.listed h' v h2, h1⟩
  · intro h' v hv; exact hi.index h' v (hg h' v hv).2
  · intro h1 v1 h2 v2 hv1 hv2; exact hi.distinct h1 v1 h2 v2 (hg _ _ hv1).2 (hg _ _ hv2).2
  · intro h' v hv; simp only [hq']; exact hi.ayes h' v (hg h' v hv).2
  · intro h' v hv; simp only [hq']; exact hi.nays h' v (hg h' v hv).2
  · simp only [hq']; exact hi.fresh
  · simp only [hq']; exact hi.absent
  · intro h' v hv
    obtain ⟨h1, h2⟩ := hg h' v hv
    obtain ⟨s0, who, call, a, b, c, d, e'⟩ := hi.origin h' v h2
    refine ⟨s0, who, call, List.mem_append_left _ a, b, c, ?_, e'⟩
    simp only [Collective.remove]
    rw [FMap.get_erase_ne _ h1]; exact d
  · intro h' call hc
    simp only [Collective.remove] at hc ⊢
    by_cases hh : h' = h
    · subst hh; simp at hc
    · rw [FMap.get_erase_ne _ hh] at hc ⊢
      exact hi.proposed h' call hc
  · intro h'
    rw [pendingOf_snoc, hf]
    simp only [Collective.remove]
    by_cases hh : h' = h
    · subst hh; simp
    · rw [FMap.get_erase_ne _ hh, FMap.get_erase_ne _ hh, if_neg (fun hc => hh hc.symm)]
      exact hi.pending h'
  · intro h' i hx
    rcases decides_snoc hx with h1 | h1
    · obtain ⟨a, b⟩ := hi.closed h' i h1
      exact ⟨a, fun v hv => b v (hg h' v hv).2⟩
    · obtain ⟨rfl, hlt⟩ := hd h' i h1
      exact ⟨hlt, fun v hv => absurd rfl (hg h' v hv).1⟩

theorem get_changed (out : List AccId) (l : List Nat) (m : FMap Nat Motion) (h : Nat) :
    (l.foldl (fun m h => match m.get h with
      | some v => m.insert h (v.without out)
      | none => m) m).get h = if h ∈ l then (m.get h).map (·.without out) else m.get h := by
  induction l generalizing m with
  | nil => simp
  | cons x l ih =>
    rw [List.foldl_cons, ih]
    have hw : ∀ v : Motion, (v.without out).without out = v.without out := by
      intro v; simp [Motion.without, List.filter_filter]
    by_cases hx : h = x
    · subst hx
      cases hg : m.get h with
      | none => simp [hg]
      | some v =>
        simp only [FMap.get_insert_self, List.mem_cons, true_or, if_true, Option.map_some, hw]
        split <;> rfl
    · have hg : (match m.get x with
          | some v => m.insert x (v.without out)
          | none => m).get h = m.get h := by
        split
        · rw [FMap.get_insert_ne _ _ hx]
        · rfl
      simp only [hg, List.mem_cons, hx, false_or]

theorem Inv.change {cfg : Cfg} {t : List (State × Op × Out)} {s : State} (hi : Inv cfg t s) (e : State × Op × Out)
    (old new : List AccId) (p : Option AccId) (hold : ∀ m ∈ s.members, m ∈ old) (hnew : new.Nodup)
    (hq : ∀ h i m acc, heard h i m acc e = if m ∈ new then acc else none)
    (hf : ∀ h, follow cfg h (pendingOf cfg t h) e = pendingOf cfg t h) (hd : ∀ h i, ¬ Decides h i e) :
    Inv cfg (t ++ [e]) { changeMembers s old new with prime := p } := by
  have hq' : ∀ h i m, voteOf (t ++ [e]) h i m = if m ∈ new then voteOf t h i m else none := fun h i m => by rw [voteOf_snoc, hq]
  have hg : ∀ h v, (changeMembers s old new).voting.get h = some v →
      ∃ w, s.voting.get h = some w ∧ v = w.without (old.filter fun a => decide (a ∉ new)) := by
    intro h v hv
    simp only [changeMembers] at hv
    rw [get_changed] at hv
    cases hw : s.voting.get h with
    | none => simp [hw] at hv
    | some w =>
      rw [if_pos (hi.listed h w hw), hw] at hv
      simp only [Option.map_some, Option.some.injEq] at hv
      exact ⟨w, rfl, hv.symm⟩
  have side : ∀ (l : List AccId) (h i : Nat) (b : Bool),
      (∀ m, m ∈ l ↔ (m ∈ s.members ∧ voteOf t h i m = some b)) → ∀ m,
      (m ∈ l.filter (fun a => decide (a ∉ old.filter fun a => decide (a ∉ new))) ↔
        (m ∈ new ∧ (if m ∈ new then voteOf t h i m else none) = some b)) := by
    intro l h i b hl m
    simp only [List.mem_filter, decide_eq_true_eq, hl, not_and, not_not]
    constructor
    · rintro ⟨⟨h1, h2⟩, h3⟩
      have h4 := h3 (hold m h1)
      exact ⟨h4, by rw [if_pos h4]; exact h2⟩
    · rintro ⟨h1, h2⟩
      rw [if_pos h1] at h2
      refine ⟨⟨?_, h2⟩, fun _ => h1⟩
      apply Classical.byContradiction
      intro h3
      rw [hi.absent h i m h3] at h2
      cases h2
  refine ⟨hnew, ?_, ?_, ?_, ?_, ?_, ?_, ?_, ?_, ?_, ?_, ?_⟩
  · intro h v hv
    obtain ⟨w, hw, _⟩ := hg h v hv
    exact hi.listed h w hw
  · intro h v hv
    obtain ⟨w, hw, rfl⟩ := hg h v hv
    exact hi.index h w hw
  · intro h1 v1 h2 v2 hv1 hv2 he
    obtain ⟨w1, hw1, rfl⟩ := hg h1 v1 hv1
    obtain ⟨w2, hw2, rfl⟩ := hg h2 v2 hv2
    exact hi.distinct h1 w1 h2 w2 hw1 hw2 he
  · intro h v hv
    obtain ⟨w, hw, rfl⟩ := hg h v hv
    obtain ⟨h1, h2⟩ := hi.ayes h w hw
    refine ⟨h1.filter _, ?_⟩
    simp only [hq']
    exact side w.ayes h w.index true h2
  · intro h v hv
    obtain ⟨w, hw, rfl⟩ := hg h v hv
    obtain ⟨h1, h2⟩ := hi.nays h w hw
    refine ⟨h1.filter _, ?_⟩
    simp only [hq']
    exact side w.nays h w.index false h2
  · intro h i m hc
    rw [hq']
    split
    · exact hi.fresh h i m hc
    · rfl
  · intro h i m hm
    rw [hq']; exact if_neg hm
  · intro h v hv
    obtain ⟨w, hw, rfl⟩ := hg h v hv
    obtain ⟨s0, who, call, a, b⟩ := hi.origin h w hw
    exact ⟨s0, who, call, List.mem_append_left _ a, b⟩
  · intro h call hc
    have := hi.proposed h call hc
    show ((changeMembers s old new).voting.get h).isSome = true
    simp only [changeMembers]
    rw [get_changed]
    split <;> simp [this]
  · intro h
    rw [pendingOf_snoc, hf, hi.pending]
    show _ = ((changeMembers s old new).voting.get h).bind fun v => (s.proposalOf.get h).map fun c => _
    simp only [changeMembers]
    rw [get_changed]
    split
    · cases s.voting.get h <;> rfl
    · rfl
  · intro h i hx
    rcases decides_snoc hx with h1 | h1
    · obtain ⟨a, b⟩ := hi.closed h i h1
      refine ⟨a, fun v hv => ?_⟩
      obtain ⟨w, hw, rfl⟩ := hg h v hv
      exact b w hw
    · exact absurd h1 (hd h i)

theorem Inv.opened {cfg : Cfg} {t : List (State × Op × Out)} {s : State} (hi : Inv cfg t s) (who : AccId) (threshold call : Nat)
    (hm : who ∈ s.members) (hf : s.proposalOf.contains (cfg.hash call) = false) (ht : 2 ≤ threshold) :
    Inv cfg (t ++ [(s, .propose who threshold call true, .proposed (cfg.hash call) s.count)]) (openMotion cfg s threshold call) := by
  have hq' : ∀ h i m, voteOf (t ++ [(s, .propose who threshold call true, .proposed (cfg.hash call) s.count)]) h i m = voteOf t h i m :=
    fun h i m => by rw [voteOf_snoc]; rfl
  have hg : ∀ h v, (openMotion cfg s threshold call).voting.get h = some v →
      (h = cfg.hash call ∧ v = ⟨s.count, threshold, [], [], s.now + cfg.duration⟩) ∨ (h ≠ cfg.hash call ∧ s.voting.get h = some v) := by
    intro h v hv
    simp only [openMotion] at hv
    rw [FMap.get_insert] at hv
    split at hv
    · left; exact ⟨by assumption, by simpa using hv.symm⟩
    · right; exact ⟨by assumption, hv⟩
  refine ⟨hi.members, ?_, ?_, ?_, ?_, ?_, ?_, ?_, ?_, ?_, ?_, ?_⟩
  · intro h v hv
    simp only [openMotion, List.mem_append, List.mem_singleton]
    rcases hg h v hv with ⟨h1, _⟩ | ⟨_, h2⟩
    · exact Or.inr h1
    · exact Or.inl (hi.listed h v h2)
  · intro h v hv
    simp only [openMotion]
    rcases hg h v hv with ⟨_, rfl⟩ | ⟨_, h2⟩
    · exact Nat.lt_succ_self _
    · exact Nat.lt_succ_of_lt (hi.index h v h2)
  · intro h v h' v' hv hv' he
    rcases hg h v hv with ⟨rfl, rfl⟩ | ⟨_, h2⟩ <;> rcases hg h' v' hv' with ⟨rfl, rfl⟩ | ⟨_, h2'⟩
    · rfl
    · have := hi.index h' v' h2'
      simp only at he; omega
    · have := hi.index h v h2
      simp only at he; omega
    · exact hi.distinct h v h' v' h2 h2' he
  · intro h v hv
    simp only [hq']
    rcases hg h v hv with ⟨rfl, rfl⟩ | ⟨_, h2⟩
    · refine ⟨List.nodup_nil, fun m => ?_⟩
      simp [hi.fresh _ _ _ (Nat.le_refl _)]
    · exact hi.ayes h v h2
  · intro h v hv
    simp only [hq']
    rcases hg h v hv with ⟨rfl, rfl⟩ | ⟨_, h2⟩
    · refine ⟨List.nodup_nil, fun m => ?_⟩
      simp [hi.fresh _ _ _ (Nat.le_refl _)]
    · exact hi.nays h v h2
  · intro h i m hc
    rw [hq']
    exact hi.fresh h i m (Nat.le_of_succ_le hc)
  · intro h i m hc
    rw [hq']
    exact hi.absent h i m hc
  · intro h v hv
    rcases hg h v hv with ⟨rfl, rfl⟩ | ⟨hne, h2⟩
    · exact ⟨s, who, call, by simp, hm, rfl, by simp [openMotion], rfl, ht⟩
    · obtain ⟨s0, who', call', a, b, c, d, e'⟩ := hi.origin h v h2
      refine ⟨s0, who', call', List.mem_append_left _ a, b, c, ?_, e'⟩
      simp only [openMotion]
      rw [FMap.get_insert_ne _ _ hne]; exact d
  · intro h c hc
    simp only [openMotion] at hc ⊢
    rw [FMap.get_insert] at hc ⊢
    split
    · rfl
    · rename_i hne
      rw [if_neg hne] at hc
      exact hi.proposed h c hc
  · intro h
    rw [pendingOf_snoc]
    simp only [openMotion, follow]
    rw [FMap.get_insert, FMap.get_insert]
    by_cases hh : h = cfg.hash call
    · rw [if_pos hh, if_pos hh, if_pos hh.symm]; rfl
    · rw [if_neg hh, if_neg hh, if_neg (fun hc => hh hc.symm)]; exact hi.pending h
  · intro h i hx
    rcases decides_snoc hx with h1 | h1
    · obtain ⟨a, b⟩ := hi.closed h i h1
      refine ⟨Nat.lt_succ_of_lt a, fun v hv => ?_⟩
      rcases hg h v hv with ⟨_, rfl⟩ | ⟨_, h2⟩
      · simp only; omega
      · exact b v h2
    · obtain ⟨_, h2, _⟩ := h1; cases h2

theorem Inv.voted {cfg : Cfg} {t : List (State × Op × Out)} {s : State} (hi : Inv cfg t s) (who : AccId) (h : Nat) (a : Bool)
    (v v' : Motion) (hm : who ∈ s.members) (hv : s.voting.get h = some v) (hv' : v.vote who a = some v') :
    Inv cfg (t ++ [(s, .vote who h v.index a, .done)]) { s with voting := s.voting.insert h v' } := by
  have hq' : ∀ h' i m, voteOf (t ++ [(s, .vote who h v.index a, .done)]) h' i m =
      if who = m ∧ h = h' ∧ v.index = i then some a else voteOf t h' i m :=
    fun h' i m => by rw [voteOf_snoc]; rfl
  have hsame : v'.index = v.index ∧ v'.threshold = v.threshold ∧ v'.stop = v.stop := by
    unfold Motion.vote at hv'
    split at hv' <;> split at hv' <;> first | cases hv' | skip
    all_goals exact ⟨rfl, rfl, rfl⟩
  have hg : ∀ h' w, (s.voting.insert h v').get h' = some w → (h' = h ∧ w = v') ∨ (h' ≠ h ∧ s.voting.get h' = some w) := by
    intro h' w hw
    rw [FMap.get_insert] at hw
    split at hw
    · left; exact ⟨by assumption, by simpa using hw.symm⟩
    · right; exact ⟨by assumption, hw⟩
  have hpre : ∀ h' w, (s.voting.insert h v').get h' = some w → ∃ w0, s.voting.get h' = some w0 ∧ w0.index = w.index ∧
      w0.threshold = w.threshold ∧ w0.stop = w.stop := by
    intro h' w hw
    rcases hg h' w hw with ⟨rfl, rfl⟩ | ⟨_, h2⟩
    · exact ⟨v, hv, hsame.1.symm, hsame.2.1.symm, hsame.2.2.symm⟩
    · exact ⟨w, h2, rfl, rfl, rfl⟩
  obtain ⟨hya, hyb⟩ := hi.ayes h v hv
  obtain ⟨hna, hnb⟩ := hi.nays h v hv
  have hboth : ∀ m, (m ∈ v'.ayes ↔ (if m = who then a = true else m ∈ v.ayes)) ∧
      (m ∈ v'.nays ↔ (if m = who then a = false else m ∈ v.nays)) ∧ v'.ayes.Nodup ∧ v'.nays.Nodup := by
    intro m
    unfold Motion.vote at hv'
    cases a
    · simp only [Bool.false_eq_true, if_false] at hv'
      split at hv'
      · cases hv'
      · rename_i hnot
        cases hv'
        refine ⟨?_, ?_, hya.erase _, ?_⟩
        · rw [hya.mem_erase_iff]; split <;> simp_all
        · simp only [List.mem_append, List.mem_singleton]; split <;> simp_all
        · simp only [List.nodup_append, hna, List.nodup_cons, List.not_mem_nil, not_false_eq_true, List.nodup_nil, and_self,
            List.mem_singleton, true_and]
          intro x hx y hy; subst hy; intro he; subst he; exact hnot hx
    · simp only [if_true] at hv'
      split at hv'
      · cases hv'
      · rename_i hnot
        cases hv'
        refine ⟨?_, ?_, ?_, hna.erase _⟩
        · simp only [List.mem_append, List.mem_singleton]; split <;> simp_all
        · rw [hna.mem_erase_iff]; split <;> simp_all
        · simp only [List.nodup_append, hya, List.nodup_cons, List.not_mem_nil, not_false_eq_true, List.nodup_nil, and_self,
            List.mem_singleton, true_and]
          intro x hx y hy; subst hy; intro he; subst he; exact hnot hx
  refine ⟨hi.members, ?_, ?_, ?_, ?_, ?_, ?_, ?_, ?_, ?_, ?_, ?_⟩
  · intro h' w hw
    obtain ⟨w0, a1, _⟩ := hpre h' w hw
    exact hi.listed h' w0 a1
  · intro h' w hw
    obtain ⟨w0, a1, a2, _⟩ := hpre h' w hw
    rw [← a2]; exact hi.index h' w0 a1
  · intro h1 w1 h2 w2 hw1 hw2 he
    obtain ⟨x1, a1, a2, _⟩ := hpre h1 w1 hw1
    obtain ⟨x2, b1, b2, _⟩ := hpre h2 w2 hw2
    exact hi.distinct h1 x1 h2 x2 a1 b1 (by omega)
  · intro h' w hw
    rcases hg h' w hw with ⟨rfl, rfl⟩ | ⟨hne, h2⟩
    · refine ⟨(hboth 0).2.2.1, fun m => ?_⟩
      rw [(hboth m).1, hq', hsame.1]
      by_cases hmw : m = who
      · subst hmw; simp [hm]
      · rw [if_neg hmw, if_neg (fun hc => hmw hc.1.symm)]; exact hyb m
    · obtain ⟨b1, b2⟩ := hi.ayes h' w h2
      refine ⟨b1, fun m => ?_⟩
      rw [hq', if_neg (fun hc => hne hc.2.1.symm)]; exact b2 m
  · intro h' w hw
    rcases hg h' w hw with ⟨rfl, rfl⟩ | ⟨hne, h2⟩
    · refine ⟨(hboth 0).2.2.2, fun m => ?_⟩
      rw [(hboth m).2.1, hq', hsame.1]
      by_cases hmw : m = who
      · subst hmw; simp [hm]
      · rw [if_neg hmw, if_neg (fun hc => hmw hc.1.symm)]; exact hnb m
    · obtain ⟨b1, b2⟩ := hi.nays h' w h2
      refine ⟨b1, fun m => ?_⟩
      rw [hq', if_neg (fun hc => hne hc.2.1.symm)]; exact b2 m
  · intro h' i m hc
    have := hi.index h v hv
    rw [hq', if_neg (by simp only at hc; omega)]
    exact hi.fresh h' i m hc
  · intro h' i m hc
    rw [hq', if_neg (by rintro ⟨rfl, _⟩; exact hc hm)]
    exact hi.absent h' i m hc
  · intro h' w hw
    obtain ⟨w0, a1, a2, a3, a4⟩ := hpre h' w hw
    obtain ⟨s0, who', call', a, b, c, d, e', f⟩ := hi.origin h' w0 a1
    rw [a2, a3] at a
    exact ⟨s0, who', call', List.mem_append_left _ a, b, a4 ▸ c, d, e', a3 ▸ f⟩
  · intro h' c hc
    show ((s.voting.insert h v').get h').isSome = true
    rw [FMap.get_insert]
    split
    · rfl
    · exact hi.proposed h' c hc
  · intro h'
    rw [pendingOf_snoc]
    show pendingOf cfg t h' = ((s.voting.insert h v').get h').bind fun v => (s.proposalOf.get h').map fun c => _
    rw [hi.pending, FMap.get_insert]
    by_cases hh : h' = h
    · subst hh
      rw [if_pos rfl, hv]
      simp only [Option.bind_some, hsame.1, hsame.2.1, hsame.2.2]
    · rw [if_neg hh]
  · intro h' i hx
    rcases decides_snoc hx with h1 | h1
    · obtain ⟨a1, b⟩ := hi.closed h' i h1
      refine ⟨a1, fun w hw => ?_⟩
      obtain ⟨w0, c1, c2, _⟩ := hpre h' w hw
      rw [← c2]; exact b w0 c1
    · obtain ⟨_, h2, _⟩ := h1; cases h2

theorem inv_start (cfg : Cfg) (now : Nat) (members : List AccId) (prime : Option AccId) (hm : members.Nodup) :
    Inv cfg [] (start now members prime) := by
  have hg : ∀ h, (start now members prime).voting.get h = none := fun _ => rfl
  refine ⟨hm, ?_, ?_, ?_, ?_, ?_, fun _ _ _ _ => rfl, fun _ _ _ _ => rfl, ?_, ?_, fun _ => rfl, ?_⟩
  · intro h v hv; rw [hg] at hv; cases hv
  · intro h v hv; rw [hg] at hv; cases hv
  · intro h v _ _ hv; rw [hg] at hv; cases hv
  · intro h v hv; rw [hg] at hv; cases hv
  · intro h v hv; rw [hg] at hv; cases hv
  · intro h v hv; rw [hg] at hv; cases hv
  · intro h c hc; cases hc
  · rintro h i ⟨e, he, _⟩; cases he

theorem approve_cases (s : State) (h yes : Nat) (fits : Bool) :
    approve s h yes fits = (s, .failed) ∨
    ∃ call, s.proposalOf.get h = some call ∧ fits = true ∧
      approve s h yes fits = (remove s h, .dispatched (.members yes s.members.length) call) := by
  unfold approve
  cases s.proposalOf.get h with
  | none => exact Or.inl rfl
  | some call =>
    cases fits
    · exact Or.inl rfl
    · exact Or.inr ⟨call, rfl, rfl, rfl⟩

theorem close_cases (s : State) (h i : Nat) (fits : Bool) :
    close s h i fits = (s, .failed) ∨ close s h i fits = (s, .underflow) ∨
    ∃ v, s.voting.get h = some v ∧ v.index = i ∧
      (close s h i fits = (remove s h, .done) ∨ ∃ o call, close s h i fits = (remove s h, .dispatched o call)) := by
  unfold close
  cases hv : s.voting.get h with
  | none => exact Or.inl rfl
  | some v =>
    dsimp only
    by_cases hi : v.index ≠ i
    · rw [if_pos hi]; exact Or.inl rfl
    · rw [if_neg hi]
      have hi' : v.index = i := by omega
      have ha : ∀ yes, approve s h yes fits = (s, .failed) ∨ approve s h yes fits = (s, .underflow) ∨
          ∃ v', some v = some v' ∧ v'.index = i ∧
            (approve s h yes fits = (remove s h, .done) ∨ ∃ o call, approve s h yes fits = (remove s h, .dispatched o call)) := by
        intro yes
        rcases approve_cases s h yes fits with h1 | ⟨call, _, _, h1⟩
        · exact Or.inl h1
        · exact Or.inr (Or.inr ⟨v, rfl, hi', Or.inr ⟨_, _, h1⟩⟩)
      split
      · exact ha _
      split
      · exact Or.inr (Or.inr ⟨v, rfl, hi', Or.inl rfl⟩)
      split
      · exact Or.inl rfl
      split
      · exact Or.inr (Or.inl rfl)
      generalize (if primeAye s v then v.ayes.length + (s.members.length - (v.ayes.length + v.nays.length)) else v.ayes.length) = yes
      split
      · exact ha _
      · exact Or.inr (Or.inr ⟨v, rfl, hi', Or.inl rfl⟩)

theorem inv_step (cfg : Cfg) (t : List (State × Op × Out)) (s : State) (op : Op) (hi : Inv cfg t s)
    (hf : Faithful (s, op, (step cfg s op).2)) : Inv cfg (t ++ [(s, op, (step cfg s op).2)]) (step cfg s op).1 := by
  cases op with
  | pass n =>
    exact hi.same _ (fun _ _ _ => rfl) rfl rfl rfl rfl rfl (fun _ => rfl) (by rintro h i ⟨_, h1, _⟩; cases h1)
  | execute who call fits =>
    have hs : (step cfg s (.execute who call fits)).1 = s := by simp only [step]; split <;> rfl
    rw [hs]
    refine hi.same _ ?_ rfl rfl rfl rfl rfl ?_ (by rintro h i ⟨_, h1, _⟩; cases h1)
    · intro h i m; simp only [step]; split <;> rfl
    · intro h; simp only [step]; split <;> rfl
  | propose who th call fits =>
    simp only [step]
    unfold propose
    have hno : ∀ (o : Out) (h i : Nat), ¬ Decides h i (s, .propose who th call fits, o) := by rintro o h i ⟨_, h1, _⟩; cases h1
    by_cases h1 : who ∉ s.members
    · rw [if_pos h1]
      exact hi.same _ (fun _ _ _ => rfl) rfl rfl rfl rfl rfl (fun _ => rfl) (hno _)
    rw [if_neg h1]
    by_cases h2 : fits = false ∨ s.proposalOf.contains (cfg.hash call) = true
    · rw [if_pos h2]
      exact hi.same _ (fun _ _ _ => rfl) rfl rfl rfl rfl rfl (fun _ => rfl) (hno _)
    rw [if_neg h2]
    by_cases h3 : th < 2
    · rw [if_pos h3]
      exact hi.same _ (fun _ _ _ => rfl) rfl rfl rfl rfl rfl (fun _ => rfl) (hno _)
    rw [if_neg h3]
    by_cases h4 : cfg.maxProposals ≤ s.proposals.length
    · rw [if_pos h4]
      exact hi.same _ (fun _ _ _ => rfl) rfl rfl rfl rfl rfl (fun _ => rfl) (hno _)
    rw [if_neg h4]
    have hfit : fits = true := by cases fits <;> simp_all
    subst hfit
    exact hi.opened who th call (not_not.1 h1) (by cases hc : s.proposalOf.contains (cfg.hash call) <;> simp_all) (by omega)
  | vote who h i a =>
    simp only [step]
    unfold vote
    have hno : ∀ (o : Out) (h' i' : Nat), ¬ Decides h' i' (s, .vote who h i a, o) := by rintro o h i ⟨_, h1, _⟩; cases h1
    by_cases h1 : who ∉ s.members
    · rw [if_pos h1]
      exact hi.same _ (fun _ _ _ => rfl) rfl rfl rfl rfl rfl (fun _ => rfl) (hno _)
    rw [if_neg h1]
    cases hv : s.voting.get h with
    | none => exact hi.same _ (fun _ _ _ => rfl) rfl rfl rfl rfl rfl (fun _ => rfl) (hno _)
    | some v =>
      simp only
      by_cases h2 : v.index ≠ i
      · rw [if_pos h2]
        exact hi.same _ (fun _ _ _ => rfl) rfl rfl rfl rfl rfl (fun _ => rfl) (hno _)
      rw [if_neg h2]
      have h2' : v.index = i := by omega
      subst h2'
      cases hv' : v.vote who a with
      | none => exact hi.same _ (fun _ _ _ => rfl) rfl rfl rfl rfl rfl (fun _ => rfl) (hno _)
      | some v' => exact hi.voted who h a v v' (not_not.1 h1) hv hv'
  | close h i fits =>
    simp only [step]
    rcases close_cases s h i fits with h1 | h1 | ⟨v, hv, hvi, h1⟩
    · rw [h1]
      exact hi.same _ (fun _ _ _ => rfl) rfl rfl rfl rfl rfl (fun _ => rfl)
        (by rintro h i ⟨_, _, h1 | ⟨_, _, h1⟩⟩ <;> cases h1)
    · rw [h1]
      exact hi.same _ (fun _ _ _ => rfl) rfl rfl rfl rfl rfl (fun _ => rfl)
        (by rintro h i ⟨_, _, h1 | ⟨_, _, h1⟩⟩ <;> cases h1)
    · have hlt : i < s.count := by have := hi.index h v hv; omega
      rcases h1 with h1 | ⟨o, call, h1⟩
      · rw [h1]
        exact hi.remove _ h (fun _ _ _ => rfl) (fun _ => rfl) (by rintro h' i' ⟨_, h2, _⟩; cases h2; exact ⟨rfl, hlt⟩)
      · rw [h1]
        exact hi.remove _ h (fun _ _ _ => rfl) (fun _ => rfl) (by rintro h' i' ⟨_, h2, _⟩; cases h2; exact ⟨rfl, hlt⟩)
  | disapprove h =>
    exact hi.remove _ h (fun _ _ _ => rfl) (fun _ => rfl) (by rintro h' i' ⟨_, h2, _⟩; cases h2)
  | change old new p =>
    exact hi.change _ old new p hf.1 hf.2 (fun _ _ _ _ => rfl) (fun _ => rfl) (by rintro h' i' ⟨_, h2, _⟩; cases h2)
  | setMembers new p =>
    exact hi.change _ s.members new p (fun _ h => h) hf (fun _ _ _ _ => rfl) (fun _ => rfl) (by rintro h' i' ⟨_, h2, _⟩; cases h2)

theorem inv_run (cfg : Cfg) (now : Nat) (members : List AccId) (prime : Option AccId) (hm : members.Nodup) (ops : List Op)
    (hf : ∀ e ∈ (run cfg (start now members prime) ops).2, Faithful e) :
    Inv cfg (run cfg (start now members prime) ops).2 (run cfg (start now members prime) ops).1 := by
  induction ops using List.reverseRecOn with
  | nil => exact inv_start cfg now members prime hm
  | append_singleton ops op ih =>
    rw [run_snoc] at hf ⊢
    exact inv_step cfg _ _ op (ih fun e he => hf e (List.mem_append_left _ he)) (hf _ (List.mem_append_right _ (List.mem_singleton.2 rfl)))

theorem perm_length {l l' : List AccId} (h : l.Nodup) (h' : l'.Nodup) (he : ∀ m, m ∈ l ↔ m ∈ l') : l.length = l'.length :=
  ((List.perm_ext_iff_of_nodup h h').2 he).length_eq

theorem voters_sum (t : List (State × Op × Out)) (l : List AccId) (h i : Nat) :
    l.length = (voters t l h i (some true)).length + (voters t l h i (some false)).length + (voters t l h i none).length := by
  induction l with
  | nil => rfl
  | cons m l ih =>
    unfold voters at ih ⊢
    simp only [List.filter_cons, List.length_cons]
    rcases hv : voteOf t h i m with _ | (_ | _) <;> simp <;> omega

theorem Inv.counts {cfg : Cfg} {t : List (State × Op × Out)} {s : State} (hi : Inv cfg t s) {h : Nat} {v : Motion}
    (hv : s.voting.get h = some v) : v.ayes.length = (voters t s.members h v.index (some true)).length ∧
      v.nays.length = (voters t s.members h v.index (some false)).length := by
  obtain ⟨a1, a2⟩ := hi.ayes h v hv
  obtain ⟨b1, b2⟩ := hi.nays h v hv
  refine ⟨perm_length a1 (hi.members.filter _) fun m => ?_, perm_length b1 (hi.members.filter _) fun m => ?_⟩
  · rw [a2]; simp [voters]
  · rw [b2]; simp [voters]

/-- The outcome of closing a motion, from the history alone. -/
def outcome (cfg : Cfg) (t : List (State × Op × Out)) (s : State) (h i : Nat) (fits : Bool) : Out :=
  match pendingOf cfg t h with
  | none => .failed
  | some p =>
    let n := s.members.length
    let yes := (voters t s.members h i (some true)).length
    let silent := (voters t s.members h i none).length
    let enact (k : Nat) : Out := if fits then .dispatched (.members k n) p.call else .failed
    if p.index ≠ i then .failed
    else if p.threshold ≤ yes then enact yes
    else if yes + silent < p.threshold then .done
    else if s.now < p.stop then .failed
    else if s.prime.any (fun a => decide (voteOf t h i a = some true)) then enact (yes + silent)
    else .done

theorem close_outcome {cfg : Cfg} {t : List (State × Op × Out)} {s : State} (hi : Inv cfg t s) (h i : Nat) (fits : Bool) :
    (close s h i fits).2 = outcome cfg t s h i fits := by
  unfold close outcome
  rw [hi.pending]
  cases hv : s.voting.get h with
  | none => rfl
  | some v =>
    obtain ⟨_, _, call, _, _, _, hc, _, _⟩ := hi.origin h v hv
    obtain ⟨c1, c2⟩ := hi.counts hv
    rw [hc]
    simp only [Option.map_some, Option.bind_some]
    by_cases h1 : v.index ≠ i
    · rw [if_pos h1, if_pos h1]
    rw [if_neg h1, if_neg h1]
    have h1' : v.index = i := by omega
    subst h1'
    have hsum := voters_sum t s.members h v.index
    rw [← c1, ← c2] at hsum
    rw [← c1]
    generalize hsl : (voters t s.members h v.index none).length = silent at hsum ⊢
    have ha : ∀ yes, (approve s h yes fits).2 = if fits then .dispatched (.members yes s.members.length) call else .failed := by
      intro yes; unfold approve; rw [hc]; cases fits <;> rfl
    split
    · exact ha _
    have e1 : s.members.length - v.nays.length = v.ayes.length + silent := by omega
    rw [e1]
    split
    · rfl
    split
    · rfl
    rw [if_neg (by omega)]
    have e2 : s.members.length - (v.ayes.length + v.nays.length) = silent := by omega
    have e3 : primeAye s v = s.prime.any (fun a => decide (voteOf t h v.index a = some true)) := by
      unfold primeAye
      cases s.prime with
      | none => rfl
      | some a =>
        simp only [Option.any_some, decide_eq_decide]
        rw [(hi.ayes h v hv).2]
        constructor
        · exact fun x => x.2
        · intro x
          refine ⟨?_, x⟩
          apply Classical.byContradiction
          intro hm
          rw [hi.absent _ _ _ hm] at x; cases x
    rw [e2, e3]
    split
    · rw [if_pos (by omega)]; exact ha _
    · rfl

end Verif.Collective
