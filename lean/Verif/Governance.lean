import Verif.Collective
import Verif.CouncilProperties

/-
Who may decide what: decisions of the council and of the technical committee, of root and of single members.
Combination of the collectives (Collective.lean) with the elections of the council (Council.lean).
-/

namespace Verif.Governance

open Verif.Collective

/-! ### C131: motions of a collective -/

/-- The block number never falls. -/
theorem now_mono (cfg : Cfg) (s : State) (op : Op) : s.now ≤ (step cfg s op).1.now := by
  have ha : ∀ h y f, (approve s h y f).1.now = s.now := by
    intro h y f; unfold approve; split
    · rfl
    · split <;> rfl
  cases op with
  | pass n => exact Nat.le_add_right _ _
  | execute who c fits => simp only [step]; split <;> exact Nat.le_refl _
  | propose who th c fits =>
    simp only [step, propose]
    repeat' split
    all_goals exact Nat.le_refl _
  | vote who h i a =>
    simp only [step, vote]
    repeat' split
    all_goals exact Nat.le_refl _
  | close h i fits =>
    simp only [step, close]
    repeat' split
    all_goals first | exact Nat.le_refl _ | exact Nat.le_of_eq (ha _ _ _).symm
  | disapprove h => exact Nat.le_refl _
  | change a b c => exact Nat.le_refl _
  | setMembers a b => exact Nat.le_refl _

/-- Voting periods end at most their length after the present. -/
theorem stop_le (cfg : Cfg) (now : Nat) (members : List AccId) (prime : Option AccId) (ops : List Op) (h : Nat) (p : Pending)
    (hp : pendingOf cfg (run cfg (start now members prime) ops).2 h = some p) :
    p.stop ≤ (run cfg (start now members prime) ops).1.now + cfg.duration := by
  induction ops using List.reverseRecOn generalizing p with
  | nil => simp [run, pendingOf] at hp
  | append_singleton l op ih =>
    have hmono : (run cfg (start now members prime) l).1.now ≤ (step cfg (run cfg (start now members prime) l).1 op).1.now :=
      now_mono cfg _ op
    rw [run_snoc] at hp ⊢
    rw [pendingOf_snoc] at hp
    simp only at hp ⊢
    have hold : pendingOf cfg (run cfg (start now members prime) l).2 h = some p →
        p.stop ≤ (step cfg (run cfg (start now members prime) l).1 op).1.now + cfg.duration := fun hx => by
      have := ih p hx; omega
    unfold follow at hp
    split at hp
    · split at hp
      · cases hp; dsimp only; rename_i heq _; injection heq with e1 e2; subst e1; omega
      · exact hold hp
    · split at hp
      · cases hp
      · exact hold hp
    · split at hp
      · cases hp
      · exact hold hp
    · split at hp
      · cases hp
      · exact hold hp
    · exact hold hp

/-- In any history from any members on, with the changes of members reported from the actual list: closing a motion has exactly the
outcome given by who is a member now and how each of them voted last; nothing else (who closes, how often votes were changed, members who
left) matters. -/
theorem C131_close (cfg : Cfg) (now : Nat) (members : List AccId) (prime : Option AccId) (hm : members.Nodup) (ops : List Op)
    (hf : ∀ e ∈ (run cfg (start now members prime) ops).2, Faithful e) (h i : Nat) (fits : Bool) :
    let r := run cfg (start now members prime) ops
    (step cfg r.1 (.close h i fits)).2 = outcome cfg r.2 r.1 h i fits ∧
      r.1.members.length = (voters r.2 r.1.members h i (some true)).length + (voters r.2 r.1.members h i (some false)).length +
        (voters r.2 r.1.members h i none).length :=
  ⟨close_outcome (inv_run cfg now members prime hm ops hf) h i fits, voters_sum _ _ _ _⟩

theorem sources {cfg : Cfg} {t : List (State × Op × Out)} {s : State} (hi : Inv cfg t s) (op : Op) (o : Origin) (call : Nat)
    (hd : (step cfg s op).2 = .dispatched o call) :
    (∃ who, op = .execute who call true ∧ who ∈ s.members ∧ o = .member who) ∨
    (∃ who th, op = .propose who th call true ∧ who ∈ s.members ∧ th < 2 ∧ o = .members 1 s.members.length) ∨
    (∃ h i s' who th, op = .close h i true ∧ (s', .propose who th call true, .proposed h i) ∈ t ∧ who ∈ s'.members ∧ 2 ≤ th ∧
      ((o = .members (voters t s.members h i (some true)).length s.members.length ∧
          th ≤ (voters t s.members h i (some true)).length) ∨
       (o = .members ((voters t s.members h i (some true)).length + (voters t s.members h i none).length) s.members.length ∧
          s'.now + cfg.duration ≤ s.now ∧ (∃ p ∈ s.members, s.prime = some p ∧ voteOf t h i p = some true) ∧
          th ≤ (voters t s.members h i (some true)).length + (voters t s.members h i none).length))) := by
  cases op with
  | execute who c fits =>
    left
    simp only [step] at hd
    split at hd
    · rename_i hc
      cases hd
      exact ⟨who, by rw [hc.2], hc.1, rfl⟩
    · cases hd
  | propose who th c fits =>
    right; left
    simp only [step] at hd
    unfold propose at hd
    split at hd
    · cases hd
    rename_i h1
    split at hd
    · cases hd
    rename_i h2
    split at hd
    · rename_i h3
      cases hd
      exact ⟨who, th, by cases fits <;> simp_all, Classical.not_not.1 h1, h3, rfl⟩
    split at hd <;> cases hd
  | close h i fits =>
    right; right
    simp only [step] at hd
    rw [close_outcome hi] at hd
    unfold outcome at hd
    rw [hi.pending] at hd
    cases hv : s.voting.get h with
    | none => rw [hv] at hd; cases hd
    | some v =>
      obtain ⟨s', who, c, h1, h2, h3, h4, h5, h6⟩ := hi.origin h v hv
      rw [hv, h4] at hd
      simp only [Option.map_some, Option.bind_some] at hd
      split at hd
      · cases hd
      rename_i hix
      have hix' : v.index = i := by omega
      subst hix'
      split at hd
      · rename_i hth
        split at hd
        · rename_i hfit
          cases hd
          exact ⟨h, v.index, s', who, v.threshold, by rw [hfit], h1, h2, h6, Or.inl ⟨rfl, hth⟩⟩
        · cases hd
      split at hd
      · cases hd
      rename_i hth2
      split at hd
      · cases hd
      rename_i hnow
      split at hd
      · rename_i hp
        split at hd
        · rename_i hfit
          cases hd
          refine ⟨h, v.index, s', who, v.threshold, by rw [hfit], h1, h2, h6, Or.inr ⟨rfl, by omega, ?_, by omega⟩⟩
          cases hpr : s.prime with
          | none => rw [hpr] at hp; cases hp
          | some p =>
            rw [hpr, Option.any_some, decide_eq_true_eq] at hp
            refine ⟨p, ?_, rfl, hp⟩
            apply Classical.byContradiction
            intro hx
            rw [hi.absent _ _ _ hx] at hp; cases hp
        · cases hd
      · cases hd
  | vote who h i a =>
    exfalso
    simp only [step] at hd
    unfold vote at hd
    split at hd
    · cases hd
    split at hd
    · cases hd
    split at hd
    · cases hd
    split at hd <;> cases hd
  | pass n => cases hd
  | disapprove h => cases hd
  | change a b c => cases hd
  | setMembers a b => cases hd

/-- Everything that runs in the name of the collective: a call of a single member in the name of this member; a call proposed with a
threshold below two, counted as one vote; or a proposed motion, once closed, counted as in `C131_close`. -/
theorem C131_sources (cfg : Cfg) (now : Nat) (members : List AccId) (prime : Option AccId) (hm : members.Nodup) (ops : List Op)
    (hf : ∀ e ∈ (run cfg (start now members prime) ops).2, Faithful e) (op : Op) (o : Origin) (call : Nat)
    (hd : (step cfg (run cfg (start now members prime) ops).1 op).2 = .dispatched o call) :
    let r := run cfg (start now members prime) ops
    (∃ who, op = .execute who call true ∧ who ∈ r.1.members ∧ o = .member who) ∨
    (∃ who th, op = .propose who th call true ∧ who ∈ r.1.members ∧ th < 2 ∧ o = .members 1 r.1.members.length) ∨
    (∃ h i s' who th, op = .close h i true ∧ (s', .propose who th call true, .proposed h i) ∈ r.2 ∧ who ∈ s'.members ∧ 2 ≤ th ∧
      ((o = .members (voters r.2 r.1.members h i (some true)).length r.1.members.length ∧
          th ≤ (voters r.2 r.1.members h i (some true)).length) ∨
       (o = .members ((voters r.2 r.1.members h i (some true)).length + (voters r.2 r.1.members h i none).length) r.1.members.length ∧
          s'.now + cfg.duration ≤ r.1.now ∧ (∃ p ∈ r.1.members, r.1.prime = some p ∧ voteOf r.2 h i p = some true) ∧
          th ≤ (voters r.2 r.1.members h i (some true)).length + (voters r.2 r.1.members h i none).length))) :=
  sources (inv_run cfg now members prime hm ops hf) op o call hd

/-- A motion that has been decided is never decided again, and no votes are accepted on it. -/
theorem C131_once (cfg : Cfg) (now : Nat) (members : List AccId) (prime : Option AccId) (hm : members.Nodup) (ops : List Op)
    (hf : ∀ e ∈ (run cfg (start now members prime) ops).2, Faithful e) (h i : Nat)
    (hd : ∃ e ∈ (run cfg (start now members prime) ops).2, Decides h i e) (fits : Bool) (who : AccId) (a : Bool) :
    (step cfg (run cfg (start now members prime) ops).1 (.close h i fits)).2 = .failed ∧
      (step cfg (run cfg (start now members prime) ops).1 (.vote who h i a)).2 = .failed := by
  have hi := inv_run cfg now members prime hm ops hf
  obtain ⟨-, h2⟩ := hi.closed h i hd
  simp only [step, close, vote]
  cases hv : (run cfg (start now members prime) ops).1.voting.get h with
  | none => exact ⟨rfl, by split <;> rfl⟩
  | some v =>
    have := h2 v hv
    refine ⟨by simp only [if_pos this], ?_⟩
    split
    · rfl
    · simp only [if_pos this]

/-- A vote is accepted exactly from a member, on an open motion named with its number, and unless it repeats the vote already standing;
a proposal exactly from a member, if no motion for the same call is open and fewer than the greatest number are. No operation ends in a
subtraction below zero. -/
theorem C131_accepted (cfg : Cfg) (now : Nat) (members : List AccId) (prime : Option AccId) (hm : members.Nodup) (ops : List Op)
    (hf : ∀ e ∈ (run cfg (start now members prime) ops).2, Faithful e) :
    let r := run cfg (start now members prime) ops
    (∀ who h i a, (step cfg r.1 (.vote who h i a)).2 = .done ↔
      who ∈ r.1.members ∧ (∃ p, pendingOf cfg r.2 h = some p ∧ p.index = i) ∧ voteOf r.2 h i who ≠ some a) ∧
    (∀ who th call h i, (step cfg r.1 (.propose who th call true)).2 = .proposed h i ↔
      who ∈ r.1.members ∧ 2 ≤ th ∧ pendingOf cfg r.2 (cfg.hash call) = none ∧ r.1.proposals.length < cfg.maxProposals ∧
        h = cfg.hash call ∧ i = r.1.count) ∧
    (∀ op, (step cfg r.1 op).2 ≠ .underflow) := by
  intro r
  have hi := inv_run cfg now members prime hm ops hf
  change Inv cfg r.2 r.1 at hi
  refine ⟨?_, ?_, ?_⟩
  · intro who h i a
    simp only [step, vote]
    rw [hi.pending]
    by_cases h1 : who ∉ r.1.members
    · rw [if_pos h1]
      exact ⟨fun hc => (by cases hc), fun hc => absurd hc.1 h1⟩
    rw [if_neg h1]
    have h1' := Classical.not_not.1 h1
    cases hv : r.1.voting.get h with
    | none => exact ⟨fun hc => (by cases hc), fun ⟨_, ⟨p, hp, _⟩, _⟩ => (by cases hp)⟩
    | some v =>
      obtain ⟨_, _, call, _, _, _, hc, _, _⟩ := hi.origin h v hv
      rw [hc]
      simp only [Option.map_some, Option.bind_some]
      by_cases h2 : v.index ≠ i
      · rw [if_pos h2]
        exact ⟨fun hc => (by cases hc), fun ⟨_, ⟨p, hp, hpi⟩, _⟩ => (by cases hp; exact absurd hpi h2)⟩
      rw [if_neg h2]
      have h2' : v.index = i := by omega
      subst h2'
      obtain ⟨-, ha⟩ := hi.ayes h v hv
      obtain ⟨-, hn⟩ := hi.nays h v hv
      have key : (v.vote who a).isSome ↔ voteOf r.2 h v.index who ≠ some a := by
        unfold Motion.vote
        cases a
        · simp only [Bool.false_eq_true, if_false, hn, h1', true_and]
          split <;> simp_all
        · simp only [if_true, ha, h1', true_and]
          split <;> simp_all
      cases hv' : v.vote who a with
      | none =>
        rw [hv'] at key
        exact ⟨fun hc => (by cases hc), fun ⟨_, _, hx⟩ => absurd (key.2 hx) (by simp)⟩
      | some v' =>
        rw [hv'] at key
        exact ⟨fun _ => ⟨h1', ⟨_, rfl, rfl⟩, key.1 rfl⟩, fun _ => rfl⟩
  · intro who th call h i
    simp only [step, propose]
    have hpend : pendingOf cfg r.2 (cfg.hash call) = none ↔ r.1.proposalOf.contains (cfg.hash call) = false := by
      rw [hi.pending]
      cases hv : r.1.voting.get (cfg.hash call) with
      | none =>
        have : r.1.proposalOf.get (cfg.hash call) = none := by
          cases hp : r.1.proposalOf.get (cfg.hash call) with
          | none => rfl
          | some c => have := hi.proposed _ c hp; rw [hv] at this; cases this
        simp [FMap.contains, this]
      | some v =>
        obtain ⟨_, _, c, _, _, _, hc, _, _⟩ := hi.origin _ v hv
        simp [FMap.contains, hc]
    rw [hpend]
    by_cases h1 : who ∉ r.1.members
    · rw [if_pos h1]; exact ⟨fun hc => (by cases hc), fun hc => absurd hc.1 h1⟩
    rw [if_neg h1]
    by_cases h2 : true = false ∨ r.1.proposalOf.contains (cfg.hash call) = true
    · rw [if_pos h2]
      exact ⟨fun hc => (by cases hc), fun hc => (by simp [hc.2.2.1] at h2)⟩
    rw [if_neg h2]
    by_cases h3 : th < 2
    · rw [if_pos h3]
      exact ⟨fun hc => (by cases hc), fun hc => (by omega)⟩
    rw [if_neg h3]
    by_cases h4 : cfg.maxProposals ≤ r.1.proposals.length
    · rw [if_pos h4]
      exact ⟨fun hc => (by cases hc), fun hc => (by omega)⟩
    rw [if_neg h4]
    constructor
    · intro hc
      cases hc
      exact ⟨Classical.not_not.1 h1, by omega, by cases hb : r.1.proposalOf.contains (cfg.hash call) <;> simp_all, by omega, rfl, rfl⟩
    · rintro ⟨_, _, _, _, rfl, rfl⟩; rfl
  · intro op ho
    cases op with
    | close h i fits =>
      simp only [step] at ho
      rw [close_outcome hi] at ho
      unfold outcome at ho
      split at ho
      · cases ho
      simp only at ho
      split at ho
      · cases ho
      split at ho
      · split at ho <;> cases ho
      split at ho
      · cases ho
      split at ho
      · cases ho
      split at ho
      · split at ho <;> cases ho
      · cases ho
    | execute who c fits => simp only [step] at ho; split at ho <;> cases ho
    | propose who th c fits =>
      simp only [step, propose] at ho
      split at ho
      · cases ho
      split at ho
      · cases ho
      split at ho
      · cases ho
      split at ho <;> cases ho
    | vote who h i a =>
      simp only [step, vote] at ho
      split at ho
      · cases ho
      split at ho
      · cases ho
      split at ho
      · cases ho
      split at ho <;> cases ho
    | pass n => cases ho
    | disapprove h => cases ho
    | change a b c => cases ho
    | setMembers a b => cases ho

/-- Example: three members, the third is the prime. -/
def exCfg : Cfg := ⟨10, 100, fun c => c + 1000⟩
def exStart : State := start 5 [1, 2, 3] (some 3)
/-- 1 proposes, 1 and 2 vote for it, 2 changes their mind, 2 leaves, 4 comes. -/
def exOps : List Op := [.propose 1 2 42 true, .vote 1 1042 0 true, .vote 2 1042 0 true, .vote 2 1042 0 false,
  .change [1, 2, 3] [1, 3, 4] (some 3), .vote 4 1042 0 true]

example : (∀ e ∈ (run exCfg exStart exOps).2, Faithful e) ∧
    voters (run exCfg exStart exOps).2 (run exCfg exStart exOps).1.members 1042 0 (some true) = [1, 4] ∧
    (step exCfg (run exCfg exStart exOps).1 (.close 1042 0 true)).2 = .dispatched (.members 2 3) 42 ∧
    (run exCfg exStart (exOps ++ [.close 1042 0 true])).2.any (fun e => decide (e.2.2 = .dispatched (.members 2 3) 42)) = true ∧
    (step exCfg (run exCfg exStart (exOps ++ [.close 1042 0 true])).1 (.close 1042 0 true)).2 = .failed := by
  refine ⟨?_, by decide +kernel, by decide +kernel, by decide +kernel, by decide +kernel⟩
  intro e he
  simp only [exOps, run, List.mem_cons, List.not_mem_nil, or_false] at he
  rcases he with rfl | rfl | rfl | rfl | rfl | rfl
  · trivial
  · trivial
  · trivial
  · trivial
  · exact ⟨by decide +kernel, by decide +kernel⟩
  · trivial

/-- Silence counts: of thirteen members only the prime has voted; after the voting period the motion passes as unanimous. One block
earlier it does not. -/
theorem C131_prime_alone :
    let s := start 5 [1, 2, 3, 4, 5, 6, 7, 8, 9, 10, 11, 12, 13] (some 6)
    let ops : List Op := [.propose 6 13 42 true, .vote 6 1042 0 true]
    (step exCfg (run exCfg s (ops ++ [.pass 10])).1 (.close 1042 0 true)).2 = .dispatched (.members 13 13) 42 ∧
    (step exCfg (run exCfg s (ops ++ [.pass 9])).1 (.close 1042 0 true)).2 = .failed := by
  refine ⟨?_, ?_⟩ <;> decide +kernel

/-- No motion stays open against everybody's will: in any history, once the voting period of an open motion is over anybody can close it,
whoever voted and however the members changed, and then it is gone. -/
theorem C131_settled (cfg : Cfg) (now : Nat) (members : List AccId) (prime : Option AccId) (hm : members.Nodup) (ops : List Op)
    (hf : ∀ e ∈ (run cfg (start now members prime) ops).2, Faithful e) (h : Nat) (p : Pending)
    (hp : pendingOf cfg (run cfg (start now members prime) ops).2 h = some p) (n : Nat) (hn : cfg.duration ≤ n) :
    Decides h p.index ((run cfg (start now members prime) (ops ++ [.pass n])).1, .close h p.index true,
      (step cfg (run cfg (start now members prime) (ops ++ [.pass n])).1 (.close h p.index true)).2) ∧
    pendingOf cfg (run cfg (start now members prime) (ops ++ [.pass n] ++ [.close h p.index true])).2 h = none := by
  have hs : p.stop ≤ (run cfg (start now members prime) ops).1.now + cfg.duration := stop_le cfg now members prime ops h p hp
  have hf' : ∀ e ∈ (run cfg (start now members prime) (ops ++ [.pass n])).2, Faithful e := by
    intro e he
    rw [run_snoc] at he
    rcases List.mem_append.1 he with he | he
    · exact hf e he
    · rw [List.mem_singleton] at he; subst he; trivial
  have ho := close_outcome (inv_run cfg now members prime hm (ops ++ [.pass n]) hf') h p.index true
  have hp' : pendingOf cfg (run cfg (start now members prime) (ops ++ [.pass n])).2 h = some p := by
    rw [run_snoc, pendingOf_snoc, hp]; rfl
  have hnow : (run cfg (start now members prime) (ops ++ [.pass n])).1.now = (run cfg (start now members prime) ops).1.now + n := by
    rw [run_snoc]; rfl
  have hd : (close (run cfg (start now members prime) (ops ++ [.pass n])).1 h p.index true).2 = .done ∨
      ∃ o c, (close (run cfg (start now members prime) (ops ++ [.pass n])).1 h p.index true).2 = .dispatched o c := by
    rw [ho]
    simp only [outcome, hp']
    rw [if_neg (by simp)]
    split
    · exact Or.inr ⟨_, _, rfl⟩
    split
    · exact Or.inl rfl
    rw [if_neg (by omega)]
    split
    · exact Or.inr ⟨_, _, rfl⟩
    · exact Or.inl rfl
  refine ⟨⟨true, rfl, hd⟩, ?_⟩
  rw [run_snoc cfg (start now members prime) (ops ++ [Op.pass n]) (.close h p.index true), pendingOf_snoc]
  rcases hd with hd | ⟨o, c, hd⟩
  · simp only [step, hd, follow, if_true]
  · simp only [step, hd, follow, if_true]

/-- The hypotheses of C131_settled: an open motion that one of three members has voted for. -/
example : (pendingOf exCfg (run exCfg (start 5 [1, 2, 3] none) [.propose 1 2 42 true, .vote 1 1042 0 true]).2 1042).isSome = true ∧
    (step exCfg (run exCfg (start 5 [1, 2, 3] none) [.propose 1 2 42 true, .vote 1 1042 0 true, .pass 9]).1 (.close 1042 0 true)).2 = .failed ∧
    (step exCfg (run exCfg (start 5 [1, 2, 3] none) [.propose 1 2 42 true, .vote 1 1042 0 true, .pass 10]).1 (.close 1042 0 true)).2 = .done := by
  decide +kernel

/-! ### C132: who may decide what -/

/-- Origins a call can run with, `RuntimeOrigin` of the runtime (runtime/src/lib.rs:280, `construct_runtime!` 1551-1624). -/
inductive Who where
  | root
  | signed (a : AccId)
  | unsigned
  | council (o : Origin)
  | committee (o : Origin)
deriving DecidableEq, Repr

/-- `EnsureProportionAtLeast<N, D>` of pallet-collective (library; used at runtime/src/lib.rs:427). -/
def atLeast (n d : Nat) : Origin → Bool
  | .members y seats => decide (n * seats ≤ y * d)
  | .member _ => false

/-- `EnsureProportionMoreThan<N, D>` of pallet-collective (library; used at runtime/src/lib.rs:810). -/
def moreThan (n d : Nat) : Origin → Bool
  | .members y seats => decide (n * seats < y * d)
  | .member _ => false

/-- Decisions with an origin of their own in the runtime. -/
inductive Decision where
  | schedule
  | managePreimages
  | setPrivileges
  | cancelSlash
  | proposeReferendum
  | proposeMajority
  | proposeDefault
  | fastTrack
  | instant
  | cancelReferendum
  | cancelProposal
  | blacklist
  | veto
  | setCouncil
  | setCommittee
  | addCommitteeMember
  | removeCommitteeMember
  | swapCommitteeMember
  | resetCommittee
  | setCommitteePrime
  | approveSpending
  | rejectSpending
  | spendDirectly
  | forceIdentity
  | addRegistrar
  | foundSociety
  | manageLottery
  | forceAssets
  | forceUniques
  | pauseCalls
  | unpauseCalls
deriving DecidableEq, Repr

/-- `EitherOfDiverse<EnsureRoot, X>` and the reverse, for a share of the council (e.g. runtime/src/lib.rs:425-428). -/
def rootOr (council : Origin → Bool) : Who → Bool
  | .root => true
  | .council o => council o
  | _ => false

/-- The same for the technical committee (e.g. runtime/src/lib.rs:690-693). -/
def rootOrCommittee (committee : Origin → Bool) : Who → Bool
  | .root => true
  | .committee o => committee o
  | _ => false

/-- `EnsureRoot` (e.g. runtime/src/lib.rs:444). -/
def onlyRoot : Who → Bool
  | .root => true
  | _ => false

/-- The origins of the runtime, runtime/src/lib.rs: 425-428, 444, 513, 637-640, 673-714, 744, 804, 808-818, 853-857, 869, 1093-1094,
1133-1134, 1174, 1194, 1294, 1504-1505. -/
def may : Decision → Who → Bool
  | .schedule => rootOr (atLeast 1 2)                    -- 425-428
  | .managePreimages => onlyRoot                         -- 444
  | .setPrivileges => onlyRoot                           -- 513
  | .cancelSlash => rootOr (atLeast 3 4)                 -- 637-640
  | .proposeReferendum => rootOr (atLeast 1 2)           -- 673-676
  | .proposeMajority => rootOr (atLeast 3 5)             -- 678-681
  | .proposeDefault => rootOr (atLeast 1 1)              -- 684-687
  | .fastTrack => rootOrCommittee (atLeast 2 3)          -- 690-693
  | .instant => rootOrCommittee (atLeast 1 1)            -- 694-697
  | .cancelReferendum => rootOr (atLeast 2 3)            -- 701-704
  | .cancelProposal => rootOrCommittee (atLeast 1 1)     -- 707-710
  | .blacklist => onlyRoot                               -- 711
  | .veto => fun w => match w with                       -- 714
    | .committee (.member _) => true
    | _ => false
  | .setCouncil => onlyRoot                              -- 744
  | .setCommittee => onlyRoot                            -- 804
  | .addCommitteeMember => rootOr (moreThan 1 2)         -- 814
  | .removeCommitteeMember => rootOr (moreThan 1 2)      -- 815
  | .swapCommitteeMember => rootOr (moreThan 1 2)        -- 816
  | .resetCommittee => rootOr (moreThan 1 2)             -- 817
  | .setCommitteePrime => rootOr (moreThan 1 2)          -- 818
  | .approveSpending => rootOr (atLeast 3 5)             -- 853-856
  | .rejectSpending => rootOr (moreThan 1 2)             -- 857
  | .spendDirectly => fun _ => false                     -- 869
  | .forceIdentity => rootOr (moreThan 1 2)              -- 1093
  | .addRegistrar => rootOr (moreThan 1 2)               -- 1094
  | .foundSociety => fun w => match w with               -- 1133-1134
    | .council o => moreThan 1 2 o
    | _ => false
  | .manageLottery => onlyRoot                           -- 1174
  | .forceAssets => onlyRoot                             -- 1194
  | .forceUniques => onlyRoot                            -- 1294
  | .pauseCalls => onlyRoot                              -- 1504
  | .unpauseCalls => onlyRoot                            -- 1505

/-- No decision at all belongs to an account as such, or to less than half of a collective; a single council member decides nothing, a
single committee member only the veto. -/
theorem C132_minority (d : Decision) :
    (∀ a, may d (.signed a) = false) ∧ may d .unsigned = false ∧
    (∀ y n, 2 * y < n → may d (.council (.members y n)) = false ∧ may d (.committee (.members y n)) = false) ∧
    (∀ m, may d (.council (.member m)) = false) ∧ (∀ m, may d (.committee (.member m)) = true ↔ d = .veto) := by
  refine ⟨fun a => by cases d <;> rfl, by cases d <;> rfl, fun y n h => ?_, fun m => by cases d <;> rfl, fun m => ?_⟩
  · cases d <;> simp [may, rootOr, rootOrCommittee, onlyRoot, atLeast, moreThan] <;> omega
  · cases d <;> simp [may, rootOr, rootOrCommittee, onlyRoot, atLeast]

/-- The two collectives do not interfere: what the council may decide the committee may not and the reverse. Root may decide everything
else than the veto, direct spending and the foundation of the society. -/
theorem C132_separate (d : Decision) :
    (∀ o o', ¬ (may d (.council o) = true ∧ may d (.committee o') = true)) ∧
    (may d .root = true ↔ d ≠ .veto ∧ d ≠ .spendDirectly ∧ d ≠ .foundSociety) ∧
    (∀ y y' n, y ≤ y' → may d (.council (.members y n)) = true → may d (.council (.members y' n)) = true) ∧
    (∀ y y' n, y ≤ y' → may d (.committee (.members y n)) = true → may d (.committee (.members y' n)) = true) := by
  refine ⟨fun o o' => ?_, by cases d <;> simp [may, rootOr, rootOrCommittee, onlyRoot], fun y y' n h => ?_, fun y y' n h => ?_⟩
  · cases d <;> simp [may, rootOr, rootOrCommittee, onlyRoot]
  · cases d <;> simp [may, rootOr, rootOrCommittee, onlyRoot, atLeast, moreThan] <;> omega
  · cases d <;> simp [may, rootOr, rootOrCommittee, onlyRoot, atLeast, moreThan] <;> omega

/-- Fewest votes of a council of this size for a decision (`none`: the council may not decide it). -/
def needed (d : Decision) (seats : Nat) : Option Nat :=
  (List.range (seats + 1)).find? fun y => may d (.council (.members y seats))

/-- With all thirteen seats filled: seven votes to schedule, to call a referendum, to change the committee, to reject spending and for
identities; eight to approve spending; nine to cancel a referendum; ten to cancel a slash; thirteen for a referendum by default. -/
theorem C132_thirteen :
    [Decision.schedule, .proposeReferendum, .addCommitteeMember, .rejectSpending, .forceIdentity, .foundSociety].map (needed · 13)
      = [some 7, some 7, some 7, some 7, some 7, some 7] ∧
    [Decision.proposeMajority, .approveSpending, .cancelReferendum, .cancelSlash, .proposeDefault].map (needed · 13)
      = [some 8, some 8, some 9, some 10, some 13] ∧
    [Decision.fastTrack, .instant, .cancelProposal, .blacklist, .veto, .setCouncil, .pauseCalls].map (needed · 13)
      = [none, none, none, none, none, none, none] := by
  refine ⟨?_, ?_, ?_⟩ <;> decide +kernel

/-- Votes the council needs for a decision, by its number of members: the least number that is at least half, more than half, three
fifths, two thirds, three quarters or all of them; `none` for what the council may not decide. -/
def councilVotes (n : Nat) : Decision → Option Nat
  | .schedule | .proposeReferendum => some ((n + 1) / 2)
  | .addCommitteeMember | .removeCommitteeMember | .swapCommitteeMember | .resetCommittee | .setCommitteePrime
  | .rejectSpending | .forceIdentity | .addRegistrar | .foundSociety => some (n / 2 + 1)
  | .proposeMajority | .approveSpending => some ((3 * n + 4) / 5)
  | .cancelReferendum => some ((2 * n + 2) / 3)
  | .cancelSlash => some ((3 * n + 3) / 4)
  | .proposeDefault => some n
  | _ => none

/-- The same for the technical committee. -/
def committeeVotes (n : Nat) : Decision → Option Nat
  | .fastTrack => some ((2 * n + 2) / 3)
  | .instant | .cancelProposal => some n
  | _ => none

/-- For a collective of any size: exactly from so many votes on it may decide. -/
theorem C132_votes (d : Decision) (y n : Nat) :
    (may d (.council (.members y n)) = true ↔ ∃ k, councilVotes n d = some k ∧ k ≤ y) ∧
    (may d (.committee (.members y n)) = true ↔ ∃ k, committeeVotes n d = some k ∧ k ≤ y) := by
  constructor <;> cases d <;>
    simp [may, rootOr, rootOrCommittee, onlyRoot, atLeast, moreThan, councilVotes, committeeVotes] <;> omega

example : councilVotes 12 .schedule = some 6 ∧ councilVotes 12 .addRegistrar = some 7 ∧ councilVotes 13 .cancelSlash = some 10 ∧
    committeeVotes 5 .fastTrack = some 4 := by decide

/-- What is called a straight majority in the runtime (runtime/src/lib.rs:672-675) is not one: half of twelve members is enough to call a
referendum or to schedule a call, though not to change the committee. -/
theorem C132_half_is_enough :
    may .proposeReferendum (.council (.members 6 12)) = true ∧ may .schedule (.council (.members 6 12)) = true ∧
    may .addCommitteeMember (.council (.members 6 12)) = false := by
  refine ⟨?_, ?_, ?_⟩ <;> decide +kernel

/-! ### The council, elected -/

/-- Elections and motions together. -/
structure Gov where
  el : Council.State
  coll : State

inductive GOp where
  /-- elections: votes, candidacies, removals, terms -/
  | elect (op : Council.Op)
  /-- motions -/
  | motion (op : Op)
  /-- root's `set_members` of the collective -/
  | override (new : List AccId) (prime : Option AccId)

/-- Operations on motions. -/
def isMotion : Op → Bool
  | .change _ _ _ => false
  | .setMembers _ _ => false
  | _ => true

/-- Whether the elections pallet calls `change_members_sorted`: after a removal (pallets/elections-phragmen/src/lib.rs:851-883), which
always changes the members, and after an election (1109-1119), which counts a round. A removal followed by an election in the same call
reports twice; the account removed is no candidate then, so the difference of the lists before and after is the same. -/
def reports (el el' : Council.State) : Bool := decide (el'.members ≠ el.members ∨ el'.rounds ≠ el.rounds)

/-- What happens to the collective. (After an override the prime kept by a removal would be the collective's own; not used below.) -/
def collOp (ecfg : Council.Cfg) (g : Gov) : GOp → Option Op
  | .elect op =>
    let el' := (Council.step ecfg g.el op).1
    if reports g.el el' then some (.change (g.el.members.map Council.Seat.who) el'.council el'.prime) else none
  | .motion op => if isMotion op then some op else none
  | .override new p => some (.setMembers new p)

/-- One operation, with the event of the collective (`ChangeMembers = Council`, runtime/src/lib.rs:769). -/
def gstep (cfg : Cfg) (ecfg : Council.Cfg) (g : Gov) (op : GOp) : Gov × List (State × Op × Out) :=
  let el' := match op with
    | .elect o => (Council.step ecfg g.el o).1
    | _ => g.el
  match collOp ecfg g op with
  | some c => (⟨el', (step cfg g.coll c).1⟩, [(g.coll, c, (step cfg g.coll c).2)])
  | none => (⟨el', g.coll⟩, [])

/-- A history with the events of the collective. -/
def grun (cfg : Cfg) (ecfg : Council.Cfg) (g : Gov) : List GOp → Gov × List (State × Op × Out)
  | [] => (g, [])
  | op :: ops =>
    let r := gstep cfg ecfg g op
    let t := grun cfg ecfg r.1 ops
    (t.1, r.2 ++ t.2)

theorem grun_snoc (cfg : Cfg) (ecfg : Council.Cfg) (g : Gov) (l : List GOp) (op : GOp) :
    grun cfg ecfg g (l ++ [op]) = ((gstep cfg ecfg (grun cfg ecfg g l).1 op).1,
      (grun cfg ecfg g l).2 ++ (gstep cfg ecfg (grun cfg ecfg g l).1 op).2) := by
  induction l generalizing g with
  | nil => simp [grun]
  | cons x l ih => simp only [List.cons_append, grun, ih, List.append_assoc]

/-- At genesis the collective is empty: `InitializeMembers = ()`, runtime/src/lib.rs:772. -/
def ggenesis (el : Council.State) (now : Nat) : Gov := ⟨el, start now [] none⟩

def isOverride : GOp → Bool
  | .override _ _ => true
  | _ => false

structure GInv (cfg : Cfg) (ecfg : Council.Cfg) (t : List (State × Op × Out)) (g : Gov) : Prop where
  lists : Council.Lists ecfg g.el
  inv : Inv cfg t g.coll
  members : g.coll.members = g.el.council
  prime : g.coll.prime = g.el.prime
  council : g.el.council = [] ∨ g.el.council = g.el.members.map Council.Seat.who

theorem motion_frame (cfg : Cfg) (s : State) (op : Op) (h : isMotion op = true) :
    (step cfg s op).1.members = s.members ∧ (step cfg s op).1.prime = s.prime := by
  cases op with
  | change a b c => cases h
  | setMembers a b => cases h
  | pass n => exact ⟨rfl, rfl⟩
  | disapprove h => exact ⟨rfl, rfl⟩
  | execute who c fits => simp only [step]; split <;> exact ⟨rfl, rfl⟩
  | propose who th c fits =>
    simp only [step, propose]
    split
    · exact ⟨rfl, rfl⟩
    split
    · exact ⟨rfl, rfl⟩
    split
    · exact ⟨rfl, rfl⟩
    split <;> exact ⟨rfl, rfl⟩
  | vote who h i a =>
    simp only [step, vote]
    split
    · exact ⟨rfl, rfl⟩
    split
    · exact ⟨rfl, rfl⟩
    split
    · exact ⟨rfl, rfl⟩
    split <;> exact ⟨rfl, rfl⟩
  | close hh i fits =>
    simp only [step]
    rcases close_cases s hh i fits with h1 | h1 | ⟨v, _, _, h1 | ⟨o, c, h1⟩⟩ <;> rw [h1] <;> exact ⟨rfl, rfl⟩

theorem elect_council {ecfg : Council.Cfg} {el : Council.State} (hl : Council.Lists ecfg el) (op : Council.Op) :
    ((Council.step ecfg el op).1.members = el.members ∧ (Council.step ecfg el op).1.council = el.council ∧
      (Council.step ecfg el op).1.prime = el.prime ∧ (Council.step ecfg el op).1.rounds = el.rounds) ∨
    (Council.step ecfg el op).1.council = (Council.step ecfg el op).1.members.map Council.Seat.who ∧
      reports el (Council.step ecfg el op).1 = true := by
  by_cases ho : op.own = true
  · rcases (Council.step_spec hl ho).change with ⟨hm, hc, hp, hr⟩ | ⟨a, sl, d, h⟩ | ⟨w, hv, h⟩ | ⟨a, sl, d, m, w, h, hl', hv, hi⟩
    · exact Or.inl ⟨hm, hc, hp, hr⟩
    · refine Or.inr ⟨h.council, ?_⟩
      simp only [reports, decide_eq_true_eq]
      left
      intro he
      have hni := (Council.removed_not_involved h hl).1
      apply hni
      rw [Council.involved_iff]
      have hmem := h.mem
      rw [← he] at hmem
      simp only [Council.seats, List.map_append, List.map_map, Function.comp_def, List.mem_append]
      right; left
      exact hmem
    · rw [h]
      exact Or.inr ⟨(Council.install_members ecfg _ w).symm, by simp [reports, Council.install]⟩
    · rw [hi]
      refine Or.inr ⟨(Council.install_members ecfg _ w).symm, ?_⟩
      simp [reports, Council.install, h.rounds]
  · cases op with
    | external b o => exact Or.inl ⟨rfl, rfl, rfl, rfl⟩
    | _ => exact absurd rfl ho

theorem ginv_step {cfg : Cfg} {ecfg : Council.Cfg} {t : List (State × Op × Out)} {g : Gov} (hi : GInv cfg ecfg t g) (op : GOp)
    (ho : isOverride op = false) : GInv cfg ecfg (t ++ (gstep cfg ecfg g op).2) (gstep cfg ecfg g op).1 := by
  cases op with
  | override new p => cases ho
  | motion op =>
    simp only [gstep, collOp]
    cases hm : isMotion op with
    | false => simpa using hi
    | true =>
      simp only [if_true]
      obtain ⟨h1, h2⟩ := motion_frame cfg g.coll op hm
      refine ⟨hi.lists, inv_step cfg t g.coll op hi.inv ?_, h1.trans hi.members, h2.trans hi.prime, hi.council⟩
      cases op with
      | change a b c => cases hm
      | setMembers a b => cases hm
      | _ => trivial
  | elect op =>
    have hl' : Council.Lists ecfg (Council.step ecfg g.el op).1 := Council.run_lists hi.lists [op]
    simp only [gstep, collOp]
    rcases elect_council hi.lists op with ⟨h1, h2, h3, h4⟩ | ⟨h1, h2⟩
    · have hr : reports g.el (Council.step ecfg g.el op).1 = false := by simp [reports, h1, h4]
      simp only [hr]
      simp only [Bool.false_eq_true, if_false, List.append_nil]
      exact ⟨hl', hi.inv, by rw [h2]; exact hi.members, by rw [h3]; exact hi.prime, by rw [h1, h2]; exact hi.council⟩
    · simp only [h2, if_true]
      refine ⟨hl', inv_step cfg t g.coll _ hi.inv ⟨?_, ?_⟩, rfl, rfl, Or.inr h1⟩
      · intro m hm
        rw [hi.members] at hm
        rcases hi.council with h | h
        · rw [h] at hm; cases hm
        · rw [h] at hm; exact hm
      · rw [h1]
        exact hl'.membersSorted.imp (fun h => Nat.ne_of_lt h)

theorem ginv_run {cfg : Cfg} {ecfg : Council.Cfg} {b : Bank} {o : AccId → Balance} {ms : List (AccId × Balance)} {el : Council.State}
    (h0 : Council.genesis ecfg b o ms = some el) (now : Nat) (ops : List GOp) (ho : ∀ op ∈ ops, isOverride op = false) :
    GInv cfg ecfg (grun cfg ecfg (ggenesis el now) ops).2 (grun cfg ecfg (ggenesis el now) ops).1 := by
  induction ops using List.reverseRecOn with
  | nil =>
    obtain ⟨h1, -, h3, h4, -⟩ := Council.genesis_lists h0
    exact ⟨h1, inv_start cfg now [] none List.nodup_nil, h4.symm, h3.symm, Or.inl h4⟩
  | append_singleton ops op ih =>
    rw [grun_snoc]
    exact ginv_step (ih fun x hx => ho x (List.mem_append_left _ hx)) op (ho op (List.mem_append_right _ (List.mem_singleton.2 rfl)))

/-- In any history from genesis, unless root overwrites the collective's list: the collective's members are the elected members (or nobody
before the first report), its prime the elected one. Whatever is decided in the name of the council is supported by at least half of the
elected members: distinct elected members whose last vote on the motion is for it, or who have not voted when the prime's last vote is for
it and the voting period is over. What is missing: histories with `set_members` by root (see `C132_override`). -/
theorem C132_share_partial {cfg : Cfg} {ecfg : Council.Cfg} {b : Bank} {ext : AccId → Balance} {ms : List (AccId × Balance)}
    {el : Council.State} (h0 : Council.genesis ecfg b ext ms = some el) (now : Nat) (ops : List GOp)
    (ho : ∀ op ∈ ops, isOverride op = false) :
    let r := grun cfg ecfg (ggenesis el now) ops
    (r.1.coll.members = [] ∨ r.1.coll.members = r.1.el.members.map Council.Seat.who) ∧ r.1.coll.prime = r.1.el.prime ∧
    ∀ op o call d, (step cfg r.1.coll op).2 = .dispatched o call → may d (.council o) = true →
      ∃ supporters : List AccId, supporters.Nodup ∧ (∀ m ∈ supporters, m ∈ r.1.el.members.map Council.Seat.who) ∧
        o = .members supporters.length r.1.el.members.length ∧ r.1.el.members.length ≤ 2 * supporters.length ∧
        ((∃ who th, op = .propose who th call true ∧ th < 2 ∧ supporters = [who]) ∨
          ∃ h i s' who th, op = .close h i true ∧ (s', .propose who th call true, .proposed h i) ∈ r.2 ∧ th ≤ supporters.length ∧
            ∀ m ∈ supporters, voteOf r.2 h i m = some true ∨
              (voteOf r.2 h i m = none ∧ s'.now + cfg.duration ≤ r.1.coll.now ∧
                ∃ p, r.1.el.prime = some p ∧ voteOf r.2 h i p = some true)) := by
  intro r
  have hg : GInv cfg ecfg r.2 r.1 := ginv_run h0 now ops ho
  refine ⟨by rw [hg.members]; exact hg.council, hg.prime, ?_⟩
  intro op o call d hd hmay
  have hmem : ∀ m, m ∈ r.1.coll.members → r.1.coll.members = r.1.el.members.map Council.Seat.who := by
    intro m hm
    rcases hg.council with h | h
    · rw [hg.members, h] at hm; cases hm
    · rw [hg.members, h]
  have hhalf : ∀ y n, o = .members y n → n ≤ 2 * y := by
    intro y n he
    apply Classical.byContradiction
    intro hlt
    have := ((C132_minority d).2.2.1 y n (by omega)).1
    rw [← he, hmay] at this
    cases this
  rcases sources hg.inv op o call hd with ⟨who, h1, h2, h3⟩ | ⟨who, th, h1, h2, h3, h4⟩ | ⟨h, i, s', who, th, h1, h2, h3, h4, h5⟩
  · rw [h3, (C132_minority d).2.2.2.1] at hmay; cases hmay
  · have hc := hmem who h2
    have hlen : r.1.coll.members.length = r.1.el.members.length := by rw [hc, List.length_map]
    refine ⟨[who], List.nodup_singleton _, ?_, by rw [h4, hlen]; rfl, ?_, Or.inl ⟨who, th, h1, h3, rfl⟩⟩
    · intro m hm
      rw [List.mem_singleton] at hm
      rw [hm, ← hc]; exact h2
    · rw [← hlen]; exact hhalf _ _ h4
  · rcases h5 with ⟨h5, h6⟩ | ⟨h5, h6, h7, h8⟩
    · have hsub : ∀ m ∈ voters r.2 r.1.coll.members h i (some true), m ∈ r.1.coll.members ∧ voteOf r.2 h i m = some true := by
        intro m hm
        simpa [voters] using hm
      have hne : ∃ m, m ∈ voters r.2 r.1.coll.members h i (some true) := by
        cases hv : voters r.2 r.1.coll.members h i (some true) with
        | nil => rw [hv] at h6; simp at h6; omega
        | cons x l => exact ⟨x, List.mem_cons_self⟩
      obtain ⟨m0, hm0⟩ := hne
      have hc := hmem m0 (hsub m0 hm0).1
      have hlen : r.1.coll.members.length = r.1.el.members.length := by rw [hc, List.length_map]
      refine ⟨voters r.2 r.1.coll.members h i (some true), hg.inv.members.filter _, ?_, by rw [h5, hlen], ?_,
        Or.inr ⟨h, i, s', who, th, h1, h2, h6, fun m hm => Or.inl (hsub m hm).2⟩⟩
      · intro m hm; rw [← hc]; exact (hsub m hm).1
      · rw [← hlen]; exact hhalf _ _ h5
    · obtain ⟨p, hp1, hp2, hp3⟩ := h7
      have hc := hmem p hp1
      have hlen : r.1.coll.members.length = r.1.el.members.length := by rw [hc, List.length_map]
      have hsum := voters_sum r.2 r.1.coll.members h i
      have hl2 : (r.1.coll.members.filter fun m => decide (voteOf r.2 h i m ≠ some false)).length =
          (voters r.2 r.1.coll.members h i (some true)).length + (voters r.2 r.1.coll.members h i none).length := by
        have := List.length_eq_length_filter_add (l := r.1.coll.members) (fun m => decide (voteOf r.2 h i m = some false))
        have he : (r.1.coll.members.filter fun m => !decide (voteOf r.2 h i m = some false)) =
            r.1.coll.members.filter fun m => decide (voteOf r.2 h i m ≠ some false) := by
          apply List.filter_congr
          intro m _
          simp
        rw [he] at this
        have e2 : (r.1.coll.members.filter fun m => decide (voteOf r.2 h i m = some false)).length =
          (voters r.2 r.1.coll.members h i (some false)).length := rfl
        omega
      refine ⟨r.1.coll.members.filter fun m => decide (voteOf r.2 h i m ≠ some false), hg.inv.members.filter _, ?_,
        by rw [hl2, h5, hlen], ?_, Or.inr ⟨h, i, s', who, th, h1, h2, by rw [hl2]; exact h8, ?_⟩⟩
      · intro m hm; rw [← hc]; exact (List.mem_filter.1 hm).1
      · rw [hl2, ← hlen]; exact hhalf _ _ h5
      · intro m hm
        have hv := (List.mem_filter.1 hm).2
        rw [decide_eq_true_eq] at hv
        rcases hx : voteOf r.2 h i m with _ | (_ | _)
        · exact Or.inr ⟨rfl, h6, p, by rw [← hg.prime]; exact hp2, hp3⟩
        · exact absurd hx hv
        · exact Or.inl rfl

/-- Example: the elected council decides. -/
def exGov : Gov := ggenesis Council.exState 0
def exGOps : List GOp := Council.exOps.map .elect ++
  [.motion (.propose 1 2 42 true), .motion (.vote 1 1042 0 true), .motion (.vote 3 1042 0 true)]

example : (∀ op ∈ exGOps, isOverride op = false) ∧
    (grun exCfg Council.exCfg exGov exGOps).1.coll.members = [1, 3] ∧
    (step exCfg (grun exCfg Council.exCfg exGov exGOps).1.coll (.close 1042 0 true)).2 = .dispatched (.members 2 2) 42 ∧
    may .proposeDefault (.council (.members 2 2)) = true := by
  refine ⟨?_, by decide +kernel, by decide +kernel, by decide +kernel⟩
  intro op h
  simp only [exGOps, List.mem_append, List.mem_map, List.mem_cons, List.not_mem_nil, or_false] at h
  rcases h with ⟨o, _, rfl⟩ | rfl | rfl | rfl <;> rfl

/-- After root has overwritten the collective's list, votes outlive their voters: 7 and 8, never elected, vote while root's list stands; a
member is removed and the elections report the elected council again, but only those who leave the *elections'* list lose their votes. The
motion passes as unanimous although no member of the council has voted. -/
theorem C132_override :
    let ops := Council.exOps.map GOp.elect ++ [.override [7, 8] none, .motion (.propose 7 2 42 true), .motion (.vote 7 1042 0 true),
      .motion (.vote 8 1042 0 true), .elect (.removeMember 1 false false none)]
    let g := (grun exCfg Council.exCfg exGov ops).1
    g.coll.members = g.el.members.map Council.Seat.who ∧ 7 ∉ g.coll.members ∧ 8 ∉ g.coll.members ∧
    (step exCfg g.coll (.close 1042 0 true)).2 = .dispatched (.members 2 2) 42 := by
  refine ⟨?_, ?_, ?_, ?_⟩ <;> decide +kernel

end Verif.Governance
