import Verif.Governance

/-
Property C148: members who reach the threshold of a motion and stand by it get it enacted; members without whom the
threshold cannot be reached and who stand against it prevent it, whatever the others do. No new definitions of the code.
-/

namespace Verif.Governance

open Verif.Collective

/-- What is asked of one event (state before, call, outcome): the members in `G` do not vote other than `v` on the motion and keep
their seats. Everything else is free, failed attempts included. -/
def Stand (h i : Nat) (v : Bool) (G : List AccId) : State × Op × Out → Prop
  | (_, .vote who h' i' a, _) => h' = h → i' = i → who ∈ G → a = v
  | (_, .change _ new _, _) => ∀ a ∈ G, a ∈ new
  | (_, .setMembers new _, _) => ∀ a ∈ G, a ∈ new
  | _ => True

/-- The event is no disapproval of the motion by root. -/
def Spared (h : Nat) (e : State × Op × Out) : Prop := e.2.1 ≠ .disapprove h

/-- The event enacts the motion: its call runs with the origin of at least `th` members. -/
def Enacts (h : Nat) (p : Pending) (e : State × Op × Out) : Prop :=
  ∃ yes seats, e.2.1 = .close h p.index true ∧ e.2.2 = .dispatched (.members yes seats) p.call ∧ p.threshold ≤ yes

theorem heard_stand {h i : Nat} {v : Bool} {G : List AccId} {a : AccId} (ha : a ∈ G) (e : State × Op × Out) (hs : Stand h i v G e) :
    heard h i a (some v) e = some v := by
  obtain ⟨s, op, out⟩ := e
  cases op with
  | vote who h' i' b =>
    cases out with
    | done =>
      simp only [heard]
      split
      · rename_i hx
        obtain ⟨rfl, rfl, rfl⟩ := hx
        rw [hs rfl rfl ha]
      · rfl
    | _ => rfl
  | change old new p => simp only [heard]; rw [if_pos (hs a ha)]
  | setMembers new p => simp only [heard]; rw [if_pos (hs a ha)]
  | _ => rfl

theorem votes_stand {t : List (State × Op × Out)} {h i : Nat} {v : Bool} {G : List AccId} (ha : ∀ a ∈ G, voteOf t h i a = some v)
    (e : State × Op × Out) (hs : Stand h i v G e) : ∀ a ∈ G, voteOf (t ++ [e]) h i a = some v := by
  intro a hG
  rw [voteOf_snoc, ha a hG]
  exact heard_stand hG e hs

theorem seated_of_vote {cfg : Cfg} {t : List (State × Op × Out)} {s : State} (hi : Inv cfg t s) {h i : Nat} {v : Bool} {a : AccId}
    (ha : voteOf t h i a = some v) : a ∈ s.members := by
  refine Classical.byContradiction fun hc => ?_
  rw [hi.absent h i a hc] at ha
  cases ha

theorem length_le_of_mem {G : List AccId} (hn : G.Nodup) : ∀ {L : List AccId}, (∀ a ∈ G, a ∈ L) → G.length ≤ L.length := by
  induction G with
  | nil => intro L _; simp
  | cons g G ih =>
    intro L hs
    have hg := hs g List.mem_cons_self
    have h1 := ih (List.nodup_cons.1 hn).2 (L := L.erase g) (by
      intro a ha
      have hne : a ≠ g := by rintro rfl; exact (List.nodup_cons.1 hn).1 ha
      exact (List.mem_erase_of_ne hne).2 (hs a (List.mem_cons_of_mem _ ha)))
    have h2 := List.length_erase_of_mem hg
    have h3 := List.length_pos_of_mem hg
    simp only [List.length_cons]
    omega

theorem stand_voters {cfg : Cfg} {t : List (State × Op × Out)} {s : State} (hi : Inv cfg t s) {h i : Nat} {v : Bool} {G : List AccId}
    (hn : G.Nodup) (ha : ∀ a ∈ G, voteOf t h i a = some v) : G.length ≤ (voters t s.members h i (some v)).length := by
  refine length_le_of_mem hn fun a hG => ?_
  unfold voters
  exact List.mem_filter.2 ⟨seated_of_vote hi (ha a hG), decide_eq_true (ha a hG)⟩

/-- With enough members in favour a closing enacts the motion or, if the bounds given are too low, fails. -/
theorem close_majority {cfg : Cfg} {t : List (State × Op × Out)} {s : State} (hi : Inv cfg t s) {h : Nat} {p : Pending} {G : List AccId}
    (hn : G.Nodup) (hp : pendingOf cfg t h = some p) (ha : ∀ a ∈ G, voteOf t h p.index a = some true) (hth : p.threshold ≤ G.length)
    (i : Nat) (fits : Bool) :
    (step cfg s (.close h i fits)).2 = if i = p.index ∧ fits = true then
      .dispatched (.members (voters t s.members h p.index (some true)).length s.members.length) p.call else .failed := by
  show (close s h i fits).2 = _
  rw [close_outcome hi]
  unfold outcome
  rw [hp]
  dsimp only
  by_cases he : p.index = i
  · subst he
    have := stand_voters hi hn ha
    rw [if_neg (by simp), if_pos (by omega)]
    cases fits <;> simp
  · rw [if_pos he, if_neg (fun hx => he hx.1.symm)]

theorem pending_stands {cfg : Cfg} {t : List (State × Op × Out)} {s : State} (hi : Inv cfg t s) {h : Nat} {p : Pending} {G : List AccId}
    (hn : G.Nodup) (hp : pendingOf cfg t h = some p) (ha : ∀ a ∈ G, voteOf t h p.index a = some true) (hth : p.threshold ≤ G.length)
    (op : Op) (hd : Spared h (s, op, (step cfg s op).2)) :
    Enacts h p (s, op, (step cfg s op).2) ∨ pendingOf cfg (t ++ [(s, op, (step cfg s op).2)]) h = some p := by
  rw [pendingOf_snoc, hp]
  cases op with
  | disapprove h' =>
    right
    have : h' ≠ h := by rintro rfl; exact hd rfl
    simp only [step, follow, if_neg this]
  | close h' i fits =>
    by_cases he : h' = h
    · subst he
      have hc := close_majority hi hn hp ha hth i fits
      by_cases hx : i = p.index ∧ fits = true
      · rw [if_pos hx] at hc
        left
        obtain ⟨rfl, rfl⟩ := hx
        exact ⟨_, _, rfl, hc, Nat.le_trans hth (stand_voters hi hn ha)⟩
      · rw [if_neg hx] at hc
        right
        rw [hc]
        rfl
    · right
      cases (step cfg s (.close h' i fits)).2 <;> simp only [follow, if_neg he]
  | propose who th c fits =>
    right
    simp only [step, propose]
    split
    · rfl
    split
    · rfl
    · rename_i hx
      split
      · rfl
      split
      · rfl
      · simp only [follow]
        rw [if_neg]
        rintro rfl
        rw [hi.pending] at hp
        apply hx
        right
        cases hv : s.voting.get (cfg.hash c) with
        | none => rw [hv] at hp; cases hp
        | some v =>
          obtain ⟨_, _, call, _, _, _, hc, _, _⟩ := hi.origin _ v hv
          unfold FMap.contains
          rw [hc]
          rfl
  | pass n => right; rfl
  | execute who c fits => right; simp only [step]; split <;> rfl
  | vote who h' i a =>
    right
    cases (step cfg s (.vote who h' i a)).2 <;> rfl
  | change a b c => right; rfl
  | setMembers a b => right; rfl

/-- Members in favour of an open motion who reach its threshold, do not change their votes and keep their seats: unless root strikes
the motion, whatever the others do and however long it takes, either the motion has been enacted in the meantime, by a closing with at
least as many votes as its threshold, or anybody can have it enacted now, and no closing has rejected it. -/
theorem C148_enacted (cfg : Cfg) (now : Nat) (members : List AccId) (prime : Option AccId) (hm : members.Nodup) (ops rest : List Op)
    (hf : ∀ e ∈ (run cfg (start now members prime) (ops ++ rest)).2, Faithful e) (h : Nat) (p : Pending) (G : List AccId) (hn : G.Nodup) :
    let r := run cfg (start now members prime) ops
    let z := run cfg (start now members prime) (ops ++ rest)
    pendingOf cfg r.2 h = some p → (∀ a ∈ G, voteOf r.2 h p.index a = some true) → p.threshold ≤ G.length →
    (∀ e ∈ (run cfg r.1 rest).2, Stand h p.index true G e ∧ Spared h e) →
    ((∃ e ∈ (run cfg r.1 rest).2, Enacts h p e) ∨ Enacts h p (z.1, .close h p.index true, (step cfg z.1 (.close h p.index true)).2)) ∧
      ∀ e ∈ (run cfg r.1 rest).2, ∀ fits, e.2.1 = .close h p.index fits → e.2.2 ≠ .done := by
  intro r z hp ha hth hs
  have key : ((∃ e ∈ (run cfg r.1 rest).2, Enacts h p e) ∧ (∃ e ∈ z.2, Decides h p.index e) ∨
      (pendingOf cfg z.2 h = some p ∧ ∀ a ∈ G, voteOf z.2 h p.index a = some true)) ∧
      ∀ e ∈ (run cfg r.1 rest).2, ∀ fits, e.2.1 = .close h p.index fits → e.2.2 ≠ .done := by
    induction rest using List.reverseRecOn with
    | nil =>
      refine ⟨Or.inr ?_, fun e he => by cases he⟩
      show pendingOf cfg (run cfg (start now members prime) (ops ++ [])).2 h = some p ∧ _
      simp only [z, List.append_nil]
      exact ⟨hp, ha⟩
    | append_singleton rest op ih =>
      have hz : z = run cfg (start now members prime) ((ops ++ rest) ++ [op]) := by simp only [z, List.append_assoc]
      rw [← List.append_assoc] at hf
      rw [run_snoc] at hf
      have hz1 : (run cfg (start now members prime) (ops ++ rest)).1 = (run cfg r.1 rest).1 := by rw [run_append]
      rw [run_snoc] at hs hz ⊢
      rw [hz]
      dsimp only at hs ⊢
      have hf' : ∀ e ∈ (run cfg (start now members prime) (ops ++ rest)).2, Faithful e := fun e he => hf e (List.mem_append_left _ he)
      obtain ⟨i1, i2⟩ := ih hf' fun e he => hs e (List.mem_append_left _ he)
      have hi := inv_run cfg now members prime hm _ hf'
      obtain ⟨s1, s2⟩ := hs _ (List.mem_append_right _ (List.mem_singleton.2 rfl))
      rw [← hz1] at s1 s2
      rw [← hz1]
      rcases i1 with ⟨⟨e, e1, e2⟩, i1⟩ | ⟨i1, i3⟩
      · refine ⟨Or.inl ⟨⟨e, List.mem_append_left _ e1, e2⟩, ?_⟩, ?_⟩
        · obtain ⟨e', e3, e4⟩ := i1
          exact ⟨e', List.mem_append_left _ e3, e4⟩
        · intro e' he' fits hc
          rcases List.mem_append.1 he' with h1 | h1
          · exact i2 e' h1 fits hc
          · rw [List.mem_singleton] at h1
            subst h1
            dsimp only at hc ⊢
            subst hc
            rw [(C131_once cfg now members prime hm _ hf' h p.index i1 fits 0 true).1]
            simp
      · refine ⟨?_, ?_⟩
        · rcases pending_stands hi hn i1 i3 hth op s2 with h1 | h1
          · left
            refine ⟨⟨_, List.mem_append_right _ (List.mem_singleton.2 rfl), h1⟩, ⟨_, List.mem_append_right _ (List.mem_singleton.2 rfl), ?_⟩⟩
            obtain ⟨y, n, h2, h3, -⟩ := h1
            exact ⟨true, h2, Or.inr ⟨_, _, h3⟩⟩
          · exact Or.inr ⟨h1, votes_stand i3 _ s1⟩
        · intro e' he' fits hc
          rcases List.mem_append.1 he' with h1 | h1
          · exact i2 e' h1 fits hc
          · rw [List.mem_singleton] at h1
            subst h1
            dsimp only at hc ⊢
            subst hc
            rw [close_majority hi hn i1 i3 hth]
            split <;> simp
  refine ⟨?_, key.2⟩
  rcases key.1 with ⟨h1, -⟩ | ⟨h1, h2⟩
  · exact Or.inl h1
  · right
    have hi := inv_run cfg now members prime hm _ hf
    have hc := close_majority hi hn h1 h2 hth p.index true
    rw [if_pos ⟨rfl, rfl⟩] at hc
    exact ⟨_, _, rfl, hc, Nat.le_trans hth (stand_voters hi hn h2)⟩

/-- `C148_enacted` on a history: 1, 2 and 3 of five members are for the motion; 4 and 5 vote against it, 5 leaves and 6 comes, others
propose the same call again and close it with too low bounds. -/
example : ∃ yes seats, (step exCfg (run exCfg (start 5 [1, 2, 3, 4, 5] none)
    ([.propose 1 3 42 true, .vote 1 1042 0 true, .vote 2 1042 0 true, .vote 3 1042 0 true] ++
      [.vote 4 1042 0 false, .vote 5 1042 0 false, .change [1, 2, 3, 4, 5] [1, 2, 3, 4, 6] none, .propose 4 2 42 true,
        .close 1042 0 false, .vote 6 1042 0 false, .pass 50])).1 (.close 1042 0 true)).2 = .dispatched (.members yes seats) 42 ∧ 3 ≤ yes := by
  have key := C148_enacted exCfg 5 [1, 2, 3, 4, 5] none (by decide)
    [.propose 1 3 42 true, .vote 1 1042 0 true, .vote 2 1042 0 true, .vote 3 1042 0 true]
    [.vote 4 1042 0 false, .vote 5 1042 0 false, .change [1, 2, 3, 4, 5] [1, 2, 3, 4, 6] none, .propose 4 2 42 true,
        .close 1042 0 false, .vote 6 1042 0 false, .pass 50] ?_ 1042 ⟨0, 3, 42, 15⟩ [1, 2, 3] (by decide) (by decide +kernel)
    (by decide +kernel) (by decide) ?_
  · rcases key.1 with ⟨e, he, y, n, h1, h2, -⟩ | ⟨y, n, _, h2, h3⟩
    · exfalso
      simp only [run, List.mem_cons, List.not_mem_nil, or_false] at he
      rcases he with rfl | rfl | rfl | rfl | rfl | rfl | rfl <;> cases h1
    · exact ⟨y, n, h2, h3⟩
  · intro e he
    simp only [List.cons_append, List.nil_append, run, List.mem_cons, List.not_mem_nil, or_false] at he
    rcases he with rfl | rfl | rfl | rfl | rfl | rfl | rfl | rfl | rfl | rfl | rfl <;> try trivial
  · intro e he
    simp only [run, List.mem_cons, List.not_mem_nil, or_false] at he
    rcases he with rfl | rfl | rfl | rfl | rfl | rfl | rfl
    · exact ⟨fun _ _ h => absurd h (by decide), fun h => by cases h⟩
    · exact ⟨fun _ _ h => absurd h (by decide), fun h => by cases h⟩
    · exact ⟨show ∀ a ∈ [1, 2, 3], a ∈ [1, 2, 3, 4, 6] by decide, fun h => by cases h⟩
    · exact ⟨trivial, fun h => by cases h⟩
    · exact ⟨trivial, fun h => by cases h⟩
    · exact ⟨fun _ _ h => absurd h (by decide), fun h => by cases h⟩
    · exact ⟨trivial, fun h => by cases h⟩

theorem count_le (cfg : Cfg) (s : State) (op : Op) : s.count ≤ (step cfg s op).1.count := by
  cases op with
  | propose who th c fits =>
    simp only [step, propose]
    split
    · exact Nat.le_refl _
    split
    · exact Nat.le_refl _
    split
    · exact Nat.le_refl _
    split
    · exact Nat.le_refl _
    · exact Nat.le_succ _
  | vote who h i a =>
    simp only [step, vote]
    split
    · exact Nat.le_refl _
    split
    · exact Nat.le_refl _
    split
    · exact Nat.le_refl _
    split <;> exact Nat.le_refl _
  | close hh i fits =>
    simp only [step]
    rcases close_cases s hh i fits with h1 | h1 | ⟨v, _, _, h1 | ⟨o, c, h1⟩⟩ <;> rw [h1] <;> exact Nat.le_refl _
  | execute who c fits => simp only [step]; split <;> exact Nat.le_refl _
  | _ => exact Nat.le_refl _

/-- Nothing else is ever open under the number of a motion. -/
theorem pending_unique {cfg : Cfg} {t : List (State × Op × Out)} {s : State} {h : Nat} {p : Pending} (hlt : p.index < s.count)
    (hu : ∀ q, pendingOf cfg t h = some q → q.index = p.index → q = p) (op : Op) :
    ∀ q, pendingOf cfg (t ++ [(s, op, (step cfg s op).2)]) h = some q → q.index = p.index → q = p := by
  intro q hq hqi
  rw [pendingOf_snoc] at hq
  cases op with
  | propose who th c fits =>
    simp only [step, propose] at hq
    split at hq
    · exact hu q hq hqi
    split at hq
    · exact hu q hq hqi
    split at hq
    · exact hu q hq hqi
    split at hq
    · exact hu q hq hqi
    · simp only [follow] at hq
      split at hq
      · cases hq
        dsimp only at hqi
        omega
      · exact hu q hq hqi
  | close h' i fits =>
    generalize (step cfg s (.close h' i fits)).2 = o at hq
    cases o with
    | done => simp only [follow] at hq; split at hq
              · cases hq
              · exact hu q hq hqi
    | dispatched a b => simp only [follow] at hq; split at hq
                        · cases hq
                        · exact hu q hq hqi
    | _ => exact hu q hq hqi
  | disapprove h' =>
    simp only [follow] at hq
    split at hq
    · cases hq
    · exact hu q hq hqi
  | pass n => exact hu q hq hqi
  | execute who c fits =>
    generalize (step cfg s (.execute who c fits)).2 = o at hq
    cases o <;> exact hu q hq hqi
  | vote who h' i a =>
    generalize (step cfg s (.vote who h' i a)).2 = o at hq
    cases o <;> exact hu q hq hqi
  | change a b c => exact hu q hq hqi
  | setMembers a b => exact hu q hq hqi

/-- With so many members against it that the others cannot reach the threshold, closing a motion rejects it, at once. -/
theorem close_blocked {cfg : Cfg} {t : List (State × Op × Out)} {s : State} (hi : Inv cfg t s) {h : Nat} {p : Pending} {G : List AccId}
    (hn : G.Nodup) (ha : ∀ a ∈ G, voteOf t h p.index a = some false) (hu : ∀ q, pendingOf cfg t h = some q → q.index = p.index → q = p)
    (hth : s.members.length < p.threshold + G.length) (fits : Bool) :
    (step cfg s (.close h p.index fits)).2 = if pendingOf cfg t h = some p then .done else .failed := by
  show (close s h p.index fits).2 = _
  rw [close_outcome hi]
  unfold outcome
  cases hp : pendingOf cfg t h with
  | none => simp
  | some q =>
    dsimp only
    by_cases he : q.index = p.index
    · have := hu q hp he
      subst this
      have h1 := stand_voters hi hn ha
      have h2 := voters_sum t s.members h q.index
      rw [if_neg (by simp), if_neg (by omega), if_pos (by omega), if_pos rfl]
    · rw [if_pos he, if_neg]
      intro hx
      cases hx
      exact he rfl

/-- Members against an open motion without whom its threshold cannot be reached, and who do not change their votes and keep their seats:
whatever the others do, no closing ever enacts the motion, and as long as it is open anybody can have it rejected at once. -/
theorem C148_blocked (cfg : Cfg) (now : Nat) (members : List AccId) (prime : Option AccId) (hm : members.Nodup) (ops rest : List Op)
    (hf : ∀ e ∈ (run cfg (start now members prime) (ops ++ rest)).2, Faithful e) (h : Nat) (p : Pending) (G : List AccId) (hn : G.Nodup) :
    let r := run cfg (start now members prime) ops
    let z := run cfg (start now members prime) (ops ++ rest)
    pendingOf cfg r.2 h = some p → (∀ a ∈ G, voteOf r.2 h p.index a = some false) →
    (∀ e ∈ (run cfg r.1 rest).2, Stand h p.index false G e ∧ e.1.members.length < p.threshold + G.length) →
    (∀ e ∈ (run cfg r.1 rest).2, ∀ fits o call, e.2.1 = .close h p.index fits → e.2.2 ≠ .dispatched o call) ∧
      (z.1.members.length < p.threshold + G.length → ∀ fits,
        (step cfg z.1 (.close h p.index fits)).2 = if pendingOf cfg z.2 h = some p then .done else .failed) := by
  intro r z hp ha hs
  have key : (p.index < z.1.count ∧ (∀ q, pendingOf cfg z.2 h = some q → q.index = p.index → q = p) ∧
      ∀ a ∈ G, voteOf z.2 h p.index a = some false) ∧
      ∀ e ∈ (run cfg r.1 rest).2, ∀ fits o call, e.2.1 = .close h p.index fits → e.2.2 ≠ .dispatched o call := by
    induction rest using List.reverseRecOn with
    | nil =>
      refine ⟨?_, fun e he => by cases he⟩
      simp only [z, List.append_nil]
      refine ⟨?_, ?_, ha⟩
      · have hi := inv_run cfg now members prime hm ops (by simpa using hf)
        have h1 := (hi.pending h).symm.trans hp
        cases hv : (run cfg (start now members prime) ops).1.voting.get h with
        | none => rw [hv] at h1; cases h1
        | some v =>
          rw [hv] at h1
          have h2 := hi.index h v hv
          cases hc : (run cfg (start now members prime) ops).1.proposalOf.get h with
          | none => rw [hc] at h1; cases h1
          | some c =>
            rw [hc] at h1
            cases h1
            exact h2
      · intro q hq _
        change pendingOf cfg r.2 h = some q at hq
        rw [hp] at hq
        cases hq
        rfl
    | append_singleton rest op ih =>
      have hz : z = run cfg (start now members prime) ((ops ++ rest) ++ [op]) := by simp only [z, List.append_assoc]
      rw [← List.append_assoc] at hf
      rw [run_snoc] at hf
      have hz1 : (run cfg (start now members prime) (ops ++ rest)).1 = (run cfg r.1 rest).1 := by rw [run_append]
      rw [run_snoc] at hs hz ⊢
      rw [hz]
      dsimp only at hs ⊢
      have hf' : ∀ e ∈ (run cfg (start now members prime) (ops ++ rest)).2, Faithful e := fun e he => hf e (List.mem_append_left _ he)
      obtain ⟨⟨i1, i2, i3⟩, i4⟩ := ih hf' fun e he => hs e (List.mem_append_left _ he)
      have hi := inv_run cfg now members prime hm _ hf'
      obtain ⟨s1, s2⟩ := hs _ (List.mem_append_right _ (List.mem_singleton.2 rfl))
      rw [← hz1] at s1 s2
      rw [← hz1]
      refine ⟨⟨Nat.lt_of_lt_of_le i1 (count_le cfg _ op), pending_unique i1 i2 op, votes_stand i3 _ s1⟩, ?_⟩
      intro e' he' fits o call hc
      rcases List.mem_append.1 he' with h1 | h1
      · exact i4 e' h1 fits o call hc
      · rw [List.mem_singleton] at h1
        subst h1
        dsimp only at hc ⊢
        subst hc
        rw [close_blocked hi hn i3 i2 s2]
        split <;> simp
  refine ⟨key.2, fun hlt fits => ?_⟩
  obtain ⟨-, k2, k3⟩ := key.1
  exact close_blocked (inv_run cfg now members prime hm _ hf) hn k3 k2 hlt fits

/-- `C148_blocked` on a history: 4 and 5 of five members are against a motion that needs four votes; the others vote for it, the prime
among them, and wait for the end of the voting period. -/
example : (step exCfg (run exCfg (start 5 [1, 2, 3, 4, 5] (some 1))
    ([.propose 1 4 42 true, .vote 4 1042 0 false, .vote 5 1042 0 false] ++
      [.vote 1 1042 0 true, .vote 2 1042 0 true, .setMembers [1, 2, 4, 5, 7] (some 1), .pass 50])).1 (.close 1042 0 true)).2 = .done := by
  have key := C148_blocked exCfg 5 [1, 2, 3, 4, 5] (some 1) (by decide)
    [.propose 1 4 42 true, .vote 4 1042 0 false, .vote 5 1042 0 false]
    [.vote 1 1042 0 true, .vote 2 1042 0 true, .setMembers [1, 2, 4, 5, 7] (some 1), .pass 50] ?_ 1042 ⟨0, 4, 42, 15⟩ [4, 5] (by decide)
    (by decide +kernel) (by decide +kernel) ?_
  · rw [key.2 (by decide +kernel) true, if_pos (by decide +kernel)]
  · intro e he
    simp only [List.cons_append, List.nil_append, run, List.mem_cons, List.not_mem_nil, or_false] at he
    rcases he with rfl | rfl | rfl | rfl | rfl | rfl | rfl <;> try trivial
    show [1, 2, 4, 5, 7].Nodup
    decide
  · intro e he
    simp only [run, List.mem_cons, List.not_mem_nil, or_false] at he
    rcases he with rfl | rfl | rfl | rfl
    · exact ⟨fun _ _ h => absurd h (by decide), by decide +kernel⟩
    · exact ⟨fun _ _ h => absurd h (by decide), by decide +kernel⟩
    · exact ⟨show ∀ a ∈ [4, 5], a ∈ [1, 2, 4, 5, 7] by decide, by decide +kernel⟩
    · exact ⟨trivial, by decide +kernel⟩

end Verif.Governance
