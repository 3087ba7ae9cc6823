import Verif.CouncilProofs
import Mathlib.Data.List.Induction

/-
Properties C54, C55 and C70–C73 of the council elections; model in Verif/Council.lean, specification
functions (`seatDeposit`, `held`, `involved`, `forfeit`) in Verif/CouncilProofs.lean.
-/

namespace Verif.Council

/-! ### An example -/

/-- Accounts 1 to 6 with 1000 each, existential deposit 1. -/
def exBank : Bank :=
  { ed := 1
    accts := ((((((∅ : FMap AccId Acct).insert 1 ⟨1000, 0⟩).insert 2 ⟨1000, 0⟩).insert 3 ⟨1000, 0⟩).insert 4
      ⟨1000, 0⟩).insert 5 ⟨1000, 0⟩).insert 6 ⟨1000, 0⟩
    frozen := fun _ => 0
    pinned := fun _ => false
    issuance := 6000 }

def exCfg : Cfg :=
  { bond := 100, base := 10, factor := 2, desiredMembers := 2, desiredRunnersUp := 2, maxVoters := 10
    maxCandidates := 4, term := 7, toBalance := fun x => x }

/-- Genesis with member 4. -/
def exState : State := (genesis exCfg exBank (fun _ => 0) [(4, 50)]).getD { bank := exBank }

/-- Candidacies, votes, an election which 6 loses, and two removals. -/
def exOps : List Op :=
  [.submit 3 0 true, .submit 1 1 true, .submit 2 2 true, .submit 6 3 true,
   .vote 5 [1, 3] 300, .vote 1 [1] 200, .vote 2 [2, 3] 100,
   .block 7 (some [(1, 350), (3, 200), (2, 90), (4, 50)])]

/-! ### C54 -/

/-- After any history from genesis, with any results of the elections and anything happening
elsewhere: members and candidates are strictly sorted by account (hence without duplicates), the
runners-up are without duplicates, no account is in two of the lists, and there are never more members
or runners-up than seats. -/
theorem C54_lists {cfg : Cfg} {b : Bank} {o : AccId → Balance} {ms : List (AccId × Balance)}
    {s0 : State} (h0 : genesis cfg b o ms = some s0) (ops : List Op) :
    ((run cfg s0 ops).1.members.map Seat.who).Pairwise (· < ·) ∧
    ((run cfg s0 ops).1.candidates.map Prod.fst).Pairwise (· < ·) ∧
    ((run cfg s0 ops).1.runnersUp.map Seat.who).Nodup ∧
    (∀ a, ¬ (a ∈ (run cfg s0 ops).1.members.map Seat.who ∧
      a ∈ (run cfg s0 ops).1.runnersUp.map Seat.who)) ∧
    (∀ a, ¬ (a ∈ (run cfg s0 ops).1.members.map Seat.who ∧
      a ∈ (run cfg s0 ops).1.candidates.map Prod.fst)) ∧
    (∀ a, ¬ (a ∈ (run cfg s0 ops).1.runnersUp.map Seat.who ∧
      a ∈ (run cfg s0 ops).1.candidates.map Prod.fst)) ∧
    (run cfg s0 ops).1.members.length ≤ cfg.desiredMembers ∧
    (run cfg s0 ops).1.runnersUp.length ≤ cfg.desiredRunnersUp ∧
    (run cfg s0 ops).1.candidates.length ≤ cfg.maxCandidates + 1 := by
  have h := run_lists (genesis_lists h0).1 ops
  have hn := h.nodup
  have hseat : (seats (run cfg s0 ops).1).map Prod.fst = (run cfg s0 ops).1.candidates.map Prod.fst ++
      ((run cfg s0 ops).1.members.map Seat.who ++ (run cfg s0 ops).1.runnersUp.map Seat.who) := by
    unfold seats
    simp only [List.map_append, List.map_map, Function.comp_def]
  rw [hseat, List.nodup_append, List.nodup_append] at hn
  obtain ⟨-, ⟨-, h2, h3⟩, h4⟩ := hn
  refine ⟨h.membersSorted, h.candidatesSorted, h2, ?_, ?_, ?_, h.members, h.runnersUp, h.candidates⟩
  · rintro a ⟨x, y⟩; exact h3 a x a y rfl
  · rintro a ⟨x, y⟩; exact h4 a y a (List.mem_append_left _ x) rfl
  · rintro a ⟨x, y⟩; exact h4 a y a (List.mem_append_right _ x) rfl

/-- Hypotheses met: the example has members 1 and 3, runners-up 4 and 2 (worst first). -/
example : genesis exCfg exBank (fun _ => 0) [(4, 50)] = some exState ∧
    (run exCfg exState exOps).1.members.map Seat.who = [1, 3] ∧
    (run exCfg exState exOps).1.runnersUp.map Seat.who = [4, 2] := by
  refine ⟨by unfold exState; rfl, ?_, ?_⟩ <;> decide +kernel

/-- The limit of candidates is exceeded by one: with `maxCandidates = 4` a fifth candidacy is
accepted (`actual_count <= MaxCandidates`, lib.rs:433-436), a sixth is not. -/
theorem C54_one_more :
    (run exCfg { bank := exBank } [.submit 1 9 true, .submit 2 9 true, .submit 3 9 true,
      .submit 4 9 true, .submit 5 9 true, .submit 6 9 true]).1.candidates.length =
      exCfg.maxCandidates + 1 := by decide +kernel

/-! ### C55 -/

/-- One step: reserved balances change exactly as the deposits do, and the only money that disappears
are the deposits which `forfeit` names (for accounts with at least the existential deposit of free
balance, else dust may go too). -/
theorem C55_step {cfg : Cfg} {b : Bank} {o : AccId → Balance} {ms : List (AccId × Balance)}
    {s0 : State} (h0 : genesis cfg b o ms = some s0) (ops : List Op) (he : EnvOk cfg s0 ops) (op : Op)
    (ho : op.own = true) (a : AccId) :
    (step cfg (run cfg s0 ops).1 op).1.bank.reserved a + held (run cfg s0 ops).1 a =
      (run cfg s0 ops).1.bank.reserved a + held (step cfg (run cfg s0 ops).1 op).1 a ∧
    ((run cfg s0 ops).1.bank.ed ≤ (run cfg s0 ops).1.bank.free a →
      (step cfg (run cfg s0 ops).1 op).1.bank.free a + (step cfg (run cfg s0 ops).1 op).1.bank.reserved a +
        forfeit cfg (run cfg s0 ops).1 op a =
      (run cfg s0 ops).1.bank.free a + (run cfg s0 ops).1.bank.reserved a) := by
  obtain ⟨h1, h2, -⟩ := genesis_lists h0
  have hl := run_lists h1 ops
  have hb := run_backed h1 (fun a => by rw [h2 a]; exact Nat.zero_le _) ops he
  have hs := (step_spec (op := op) hl ho).effect hb
  exact ⟨hs.reserved a, fun hf => (hs.total a hf).2⟩

/-- Always: the reserved balance covers the deposits (provided other pallets release only what they
reserved themselves). -/
theorem C55_backed {cfg : Cfg} {b : Bank} {o : AccId → Balance} {ms : List (AccId × Balance)}
    {s0 : State} (h0 : genesis cfg b o ms = some s0) (ops : List Op) (he : EnvOk cfg s0 ops)
    (a : AccId) : held (run cfg s0 ops).1 a ≤ (run cfg s0 ops).1.bank.reserved a := by
  obtain ⟨h1, h2, -⟩ := genesis_lists h0
  exact run_backed h1 (fun a => by rw [h2 a]; exact Nat.zero_le _) ops he a

/-- Sum of what `a` forfeits in a history. -/
def forfeited (cfg : Cfg) (a : AccId) (tr : List (State × Op × Out)) : Balance :=
  (tr.map (fun e => forfeit cfg e.1 e.2.1 a)).sum

theorem run_exact {cfg : Cfg} {s : State} (hl : Lists cfg s) (hb : Backed s) (ops : List Op)
    (ho : ∀ op ∈ ops, op.own = true) (a : AccId) :
    (run cfg s ops).1.bank.reserved a + held s a = s.bank.reserved a + held (run cfg s ops).1 a ∧
    (s.bank.ed ≤ s.bank.free a →
      (run cfg s ops).1.bank.total a + forfeited cfg a (run cfg s ops).2 = s.bank.total a) := by
  induction ops generalizing s with
  | nil => exact ⟨rfl, fun _ => rfl⟩
  | cons op ops ih =>
    have hs := step_spec (op := op) hl (ho op (by simp))
    have he := hs.effect hb
    obtain ⟨i1, i2⟩ := ih hs.lists (he.backed hb) (fun x hx => ho x (by simp [hx]))
    have e1 := he.reserved a
    simp only [run]
    refine ⟨by omega, ?_⟩
    intro hf
    obtain ⟨t1, t2⟩ := he.total a hf
    have i3 := i2 t1
    have e2 : forfeited cfg a ((s, op, (step cfg s op).2) :: (run cfg (step cfg s op).1 ops).2) =
        forfeit cfg s op a + forfeited cfg a (run cfg (step cfg s op).1 ops).2 := rfl
    rw [e2]
    omega

/-- Whole histories of election calls: what is reserved beyond the initial amount is exactly what the
pallet holds, and the balance is the initial one less the forfeited deposits. So each deposit is either
still held, or has been returned, or is one of the forfeits, and none of them twice. -/
theorem C55_exact {cfg : Cfg} {b : Bank} {o : AccId → Balance} {ms : List (AccId × Balance)}
    {s0 : State} (h0 : genesis cfg b o ms = some s0) (ops : List Op)
    (ho : ∀ op ∈ ops, op.own = true) (a : AccId) :
    (run cfg s0 ops).1.bank.reserved a = s0.bank.reserved a + held (run cfg s0 ops).1 a ∧
    (s0.bank.ed ≤ s0.bank.free a →
      (run cfg s0 ops).1.bank.free a + (run cfg s0 ops).1.bank.reserved a +
        forfeited cfg a (run cfg s0 ops).2 = s0.bank.free a + s0.bank.reserved a) := by
  obtain ⟨h1, h2, -⟩ := genesis_lists h0
  have h := run_exact h1 (fun a => by rw [h2 a]; exact Nat.zero_le _) ops ho a
  rw [h2 a] at h
  exact ⟨h.1, h.2⟩

/-- In the example 6 forfeits 100; 1 holds 100 for the seat and 12 for the vote. -/
example : (∀ op ∈ exOps, op.own = true) ∧
    forfeited exCfg 6 (run exCfg exState exOps).2 = 100 ∧
    (run exCfg exState exOps).1.bank.total 6 = 900 ∧
    held (run exCfg exState exOps).1 1 = 112 ∧
    (run exCfg exState exOps).1.bank.reserved 1 = 112 := by
  refine ⟨?_, ?_, ?_, ?_, ?_⟩ <;> decide +kernel

/-! ### C70: the prime member -/

/-- Weight given by one voter: for each position at which the account stands in the votes (counted
from 0) the stake times sixteen less the position. -/
def weightOf (v : Voter) (a : AccId) : Nat :=
  ((v.votes.zipIdx.filter (fun p => decide (p.1 = a))).map (fun p => v.stake * (16 - p.2))).sum

/-- Weight of all votes. -/
def weight (voting : FMap AccId Voter) (a : AccId) : Nat := voting.sum (fun _ v => weightOf v a)

theorem bordaVotes_eq (a : AccId) (st : Balance) (i : Nat) (l : List AccId) :
    bordaVotes a st i l =
      (((l.zipIdx i).filter (fun p => decide (p.1 = a))).map (fun p => st * (16 - p.2))).sum := by
  induction l generalizing i with
  | nil => rfl
  | cons v vs ih =>
    rw [List.zipIdx_cons]
    unfold bordaVotes
    rw [ih]
    by_cases h : v = a <;> simp [h, maxVote]

theorem borda_eq (voting : FMap AccId Voter) (a : AccId) : borda voting a = weight voting a := by
  unfold borda weight weightOf
  congr 1
  funext _ v
  exact bordaVotes_eq a v.stake 0 v.votes

theorem lastMax_spec (f : AccId → Nat) (l : List AccId) :
    match lastMax f l with
    | none => l = []
    | some p => p ∈ l ∧ (∀ x ∈ l, f x ≤ f p) ∧ (l.Pairwise (· < ·) → ∀ x ∈ l, f x = f p → x ≤ p) := by
  induction l with
  | nil => rfl
  | cons x xs ih =>
    unfold lastMax
    cases h : lastMax f xs with
    | none =>
      rw [h] at ih
      simp only at ih ⊢
      subst ih
      simp
    | some y =>
      rw [h] at ih
      simp only at ih
      obtain ⟨h1, h2, h3⟩ := ih
      by_cases hxy : f x ≤ f y
      · simp only [if_pos hxy]
        refine ⟨List.mem_cons_of_mem _ h1, ?_, ?_⟩
        · intro z hz
          rcases List.mem_cons.1 hz with rfl | hz
          · exact hxy
          · exact h2 z hz
        · intro hs z hz hzy
          rw [List.pairwise_cons] at hs
          rcases List.mem_cons.1 hz with rfl | hz
          · exact Nat.le_of_lt (hs.1 y h1)
          · exact h3 hs.2 z hz hzy
      · simp only [if_neg hxy]
        refine ⟨List.mem_cons_self, ?_, ?_⟩
        · intro z hz
          rcases List.mem_cons.1 hz with rfl | hz
          · exact Nat.le_refl _
          · have := h2 z hz; omega
        · intro _ z hz hzx
          rcases List.mem_cons.1 hz with rfl | hz
          · exact Nat.le_refl _
          · have := h2 z hz; omega

theorem install_members (cfg : Cfg) (s : State) (w : List (AccId × Nat)) :
    (install cfg s w).members.map Seat.who = (newMembers cfg w).map Prod.fst := by
  unfold install toSeats
  simp only [List.map_map, Function.comp_def]

theorem removed_members {cfg : Cfg} {s s' : State} {a : AccId} {slash : Bool} {d : Balance}
    (h : Removed s s' a slash d) (hl : Lists cfg s) (x : AccId) :
    x ∈ s'.members.map Seat.who ↔
      (x ∈ s.members.map Seat.who ∧ x ≠ a) ∨ s.runnersUp.getLast?.map Seat.who = some x := by
  have hperm : x ∈ (s.members.eraseP (fun m => decide (m.who = a))).map Seat.who ↔
      x ∈ s.members.map Seat.who ∧ x ≠ a := by
    obtain ⟨m, hm, hk⟩ := List.mem_map.1 h.mem
    cases hf : s.members.find? (fun m => decide (m.who = a)) with
    | none =>
      rw [List.find?_eq_none] at hf
      exact absurd hk (by simpa using hf m hm)
    | some m' =>
      have hp := (find_perm hf).map Seat.who
      rw [List.map_cons, (find_key hf).1] at hp
      have hn : (s.members.map Seat.who).Nodup := hl.membersSorted.imp (fun hlt he => by omega)
      rw [hp.nodup_iff, List.nodup_cons] at hn
      rw [hp.mem_iff, List.mem_cons]
      constructor
      · intro hx
        exact ⟨Or.inr hx, fun e => hn.1 (e ▸ hx)⟩
      · rintro ⟨hx | hx, hne⟩
        · exact absurd hx hne
        · exact hx
  rw [h.members, ← hperm]
  unfold promote
  cases hr : s.runnersUp.getLast? with
  | none => simp
  | some r =>
    by_cases h2 : (s.members.eraseP (fun m => decide (m.who = a))).any
        (fun m => decide (m.who = r.who)) = true
    · simp only [h2, if_true, Option.map_some, Option.some.injEq]
      constructor
      · exact Or.inl
      · rintro (hx | rfl)
        · exact hx
        · obtain ⟨m, hm, e⟩ := List.any_eq_true.1 h2
          exact List.mem_map.2 ⟨m, hm, by simpa using e⟩
    · simp only [h2, Bool.false_eq_true, if_false, Option.map_some, Option.some.injEq]
      rw [((insertBy_perm Seat.who r _).map Seat.who).mem_iff, List.map_cons, List.mem_cons]
      constructor
      · rintro (e | hx)
        · exact Or.inr e.symm
        · exact Or.inl hx
      · rintro (hx | e)
        · exact Or.inr hx
        · exact Or.inl e.symm

/-- The prime is a member, and the collective's list is the member list once it has been set. -/
structure Linked (s : State) : Prop where
  prime : ∀ p, s.prime = some p → p ∈ s.members.map Seat.who

theorem linked_removed {cfg : Cfg} {s s' : State} {a : AccId} {slash : Bool} {d : Balance}
    (h : Removed s s' a slash d) (hl : Lists cfg s) (hk : Linked s) : Linked s' := by
  refine ⟨fun p hp => ?_⟩
  rw [h.prime] at hp
  unfold keepPrime at hp
  split at hp
  · cases hp
  · rename_i q hq
    split at hp
    · cases hp
    · rename_i hne
      cases hp
      exact (removed_members h hl _).2 (Or.inl ⟨hk.prime _ hq, hne⟩)

theorem linked_install (cfg : Cfg) (s : State) (w : List (AccId × Nat)) :
    Linked (install cfg s w) := by
  refine ⟨fun p hp => ?_⟩
  rw [install_members]
  have h := lastMax_spec (borda s.voting) ((newMembers cfg w).map Prod.fst)
  have e : (install cfg s w).prime = lastMax (borda s.voting) ((newMembers cfg w).map Prod.fst) := rfl
  rw [← e, hp] at h
  exact h.1

theorem step_linked {cfg : Cfg} {s : State} (op : Op) (hl : Lists cfg s) (hk : Linked s) :
    Linked (step cfg s op).1 := by
  by_cases ho : op.own = true
  · rcases (step_spec hl ho).change with ⟨hm, hc, hp, -⟩ | ⟨a, sl, d, h⟩ | ⟨w, hv, h⟩ | ⟨a, sl, d, m, w, h, hl', hv, hi⟩
    · exact ⟨fun p h => by rw [hm]; exact hk.prime p (hp ▸ h)⟩
    · exact linked_removed h hl hk
    · rw [h]; exact linked_install cfg s w
    · rw [hi]; exact linked_install cfg m w
  · cases op with
    | external b o => exact ⟨hk.prime⟩
    | _ => exact absurd rfl ho

theorem run_linked {cfg : Cfg} {s : State} (hl : Lists cfg s) (hk : Linked s) (ops : List Op) :
    Linked (run cfg s ops).1 := by
  induction ops generalizing s with
  | nil => exact hk
  | cons op ops ih =>
    have hl' : Lists cfg (step cfg s op).1 := run_lists hl [op]
    exact ih hl' (step_linked op hl hk)

/-- After any history the prime, if there is one, is a member. -/
theorem C70_prime_is_member {cfg : Cfg} {b : Bank} {o : AccId → Balance} {ms : List (AccId × Balance)}
    {s0 : State} (h0 : genesis cfg b o ms = some s0) (ops : List Op) (p : AccId)
    (hp : (run cfg s0 ops).1.prime = some p) : p ∈ (run cfg s0 ops).1.members.map Seat.who := by
  obtain ⟨h1, -, h3, -⟩ := genesis_lists h0
  exact (run_linked h1 ⟨fun p h => by rw [h3] at h; cases h⟩ ops).prime p hp

/-- Whenever an election takes place (the number of rounds grows) and leaves members, the prime is the
member whose votes have the greatest weight, the greatest account among several. -/
theorem C70_prime_is_best {cfg : Cfg} {b : Bank} {o : AccId → Balance} {ms : List (AccId × Balance)}
    {s0 : State} (h0 : genesis cfg b o ms = some s0) (ops : List Op) (op : Op) (ho : op.own = true)
    (hr : (step cfg (run cfg s0 ops).1 op).1.rounds ≠ (run cfg s0 ops).1.rounds) :
    match (step cfg (run cfg s0 ops).1 op).1.prime with
    | none => (step cfg (run cfg s0 ops).1 op).1.members = []
    | some p => p ∈ (step cfg (run cfg s0 ops).1 op).1.members.map Seat.who ∧
        ∀ x ∈ (step cfg (run cfg s0 ops).1 op).1.members.map Seat.who,
          weight (run cfg s0 ops).1.voting x < weight (run cfg s0 ops).1.voting p ∨
          (weight (run cfg s0 ops).1.voting x = weight (run cfg s0 ops).1.voting p ∧ x ≤ p) := by
  have hl := run_lists (genesis_lists h0).1 ops
  have key : ∀ (m : State) (w : List (AccId × Nat)), Lists cfg m → validResult cfg m w →
      m.voting = (run cfg s0 ops).1.voting →
      match (install cfg m w).prime with
      | none => (install cfg m w).members = []
      | some p => p ∈ (install cfg m w).members.map Seat.who ∧
          ∀ x ∈ (install cfg m w).members.map Seat.who,
            weight (run cfg s0 ops).1.voting x < weight (run cfg s0 ops).1.voting p ∨
            (weight (run cfg s0 ops).1.voting x = weight (run cfg s0 ops).1.voting p ∧ x ≤ p) := by
    intro m w hm hv hvo
    have h := lastMax_spec (borda m.voting) ((newMembers cfg w).map Prod.fst)
    have e : (install cfg m w).prime = lastMax (borda m.voting) ((newMembers cfg w).map Prod.fst) := rfl
    have hs := (install_spec hm hv).1.membersSorted
    rw [← e] at h
    cases hp : (install cfg m w).prime with
    | none =>
      rw [hp] at h
      simp only at h ⊢
      have := install_members cfg m w
      rw [h] at this
      exact List.map_eq_nil_iff.1 this
    | some p =>
      rw [hp] at h
      simp only at h ⊢
      rw [install_members] at hs ⊢
      obtain ⟨h1, h2, h3⟩ := h
      refine ⟨h1, fun x hx => ?_⟩
      have h4 := h2 x hx
      have h5 := h3 hs x hx
      rw [borda_eq, borda_eq, hvo] at h4 h5
      rcases Nat.lt_or_ge (weight (run cfg s0 ops).1.voting x) (weight (run cfg s0 ops).1.voting p) with h6 | h6
      · exact Or.inl h6
      · have e6 := Nat.le_antisymm h4 h6
        exact Or.inr ⟨e6, h5 e6⟩
  rcases (step_spec hl ho).change with ⟨-, -, -, hr'⟩ | ⟨a, sl, d, h⟩ | ⟨w, hv, h⟩ | ⟨a, sl, d, m, w, h, hl', hv, hi⟩
  · exact absurd hr' hr
  · exact absurd h.rounds hr
  · rw [h]; exact key _ w hl hv rfl
  · rw [hi]; exact key m w hl' hv h.voting

/-- In the example 1 is prime with weight 16·300 + 16·200 (3 has 15·300 + 15·100). -/
example : (run exCfg exState exOps).1.prime = some 1 ∧
    weight (run exCfg exState exOps).1.voting 1 = 8000 ∧
    weight (run exCfg exState exOps).1.voting 3 = 6000 ∧
    (step exCfg (run exCfg exState (exOps.take 7)).1 (.block 7 (some [(1, 350), (3, 200), (2, 90), (4, 50)]))).1.rounds ≠
      (run exCfg exState (exOps.take 7)).1.rounds := by
  refine ⟨?_, ?_, ?_, ?_⟩ <;> decide +kernel

/-- Repeating a name in the votes multiplies the weight: `vote` does not reject duplicates
(lib.rs:327-346). A voter with stake 300 who names 3 four times gives 16 + 15 + 14 + 13 = 58 times the
stake, while somebody named once gets at most 16 times the stake of the voter. -/
theorem C70_duplicates :
    (step exCfg (run exCfg exState (exOps.take 4)).1 (.vote 5 [3, 3, 3, 3] 300)).2 = .done ∧
    weight (step exCfg (run exCfg exState (exOps.take 4)).1 (.vote 5 [3, 3, 3, 3] 300)).1.voting 3 =
      58 * 300 := by
  refine ⟨?_, ?_⟩ <;> decide +kernel

/-! ### C71: the council as the collective knows it -/

/-- Each step leaves both the members and the collective's list as they are, or ends with the
collective having exactly the members in order. So after the first change they never differ. -/
theorem C71_step {cfg : Cfg} {b : Bank} {o : AccId → Balance} {ms : List (AccId × Balance)}
    {s0 : State} (h0 : genesis cfg b o ms = some s0) (ops : List Op) (op : Op) :
    ((step cfg (run cfg s0 ops).1 op).1.members = (run cfg s0 ops).1.members ∧
      (step cfg (run cfg s0 ops).1 op).1.council = (run cfg s0 ops).1.council) ∨
    (step cfg (run cfg s0 ops).1 op).1.council =
      (step cfg (run cfg s0 ops).1 op).1.members.map Seat.who := by
  have hl := run_lists (genesis_lists h0).1 ops
  by_cases ho : op.own = true
  · rcases (step_spec hl ho).change with ⟨hm, hc, -⟩ | ⟨a, sl, d, h⟩ | ⟨w, hv, h⟩ | ⟨a, sl, d, m, w, h, hl', hv, hi⟩
    · exact Or.inl ⟨hm, hc⟩
    · exact Or.inr h.council
    · rw [h]; exact Or.inr (install_members cfg _ w).symm
    · rw [hi]; exact Or.inr (install_members cfg _ w).symm
  · cases op with
    | external b o => exact Or.inl ⟨rfl, rfl⟩
    | _ => exact absurd rfl ho

/-- Genesis without members, or any history with at least one election: the collective's list is the
member list. -/
theorem C71_council {cfg : Cfg} {b : Bank} {o : AccId → Balance} {ms : List (AccId × Balance)}
    {s0 : State} (h0 : genesis cfg b o ms = some s0) (ops : List Op)
    (h : ms = [] ∨ (run cfg s0 ops).1.rounds ≠ 0) :
    (run cfg s0 ops).1.council = (run cfg s0 ops).1.members.map Seat.who := by
  obtain ⟨h1, -, -, h4, h5, -, -, h8⟩ := genesis_lists h0
  have inv : (ms = [] ∨ (run cfg s0 ops).1.rounds ≠ 0) →
      (run cfg s0 ops).1.council = (run cfg s0 ops).1.members.map Seat.who := by
    induction ops using List.reverseRecOn with
    | nil =>
      rintro (he | he)
      · subst he
        rw [List.length_nil, List.length_eq_zero_iff] at h8
        show s0.council = s0.members.map Seat.who
        rw [h4, h8]; rfl
      · exact absurd h5 he
    | append_singleton ops op ih =>
      intro hh
      have hrun : (run cfg s0 (ops ++ [op])).1 = (step cfg (run cfg s0 ops).1 op).1 := by
        rw [run_append]; rfl
      have hl := run_lists h1 ops
      rw [hrun] at hh ⊢
      by_cases ho : op.own = true
      · rcases (step_spec hl ho).change with ⟨hm, hc, -, hr⟩ | ⟨a, sl, d, h⟩ | ⟨w, hv, h⟩ | ⟨a, sl, d, m, w, h, hl', hv, hi⟩
        · rw [hm, hc]
          rw [hr] at hh
          exact ih hh hh
        · exact h.council
        · rw [h]; exact (install_members cfg _ w).symm
        · rw [hi]; exact (install_members cfg _ w).symm
      · cases op with
        | external b o => exact ih hh hh
        | _ => exact absurd rfl ho
  exact inv h

example : (run exCfg exState exOps).1.rounds ≠ 0 ∧ (run exCfg exState exOps).1.council = [1, 3] := by
  refine ⟨?_, ?_⟩ <;> decide +kernel

/-- With `InitializeMembers = ()` genesis members are not known to the collective. -/
theorem C71_genesis_unknown : exState.members.map Seat.who = [4] ∧ exState.council = [] := by
  refine ⟨?_, ?_⟩ <;> decide +kernel

/-! ### C72: replacement of a member -/

/-- Result of the election carried by an operation. -/
def Op.winners : Op → List AccId
  | .block _ (some w) | .removeMember _ _ _ (some w) => w.map Prod.fst
  | _ => []

/-- Order of election in the last election of the history. -/
def ranking (cfg : Cfg) (tr : List (State × Op × Out)) : List AccId :=
  tr.foldl (fun rk e => if (step cfg e.1 e.2.1).1.rounds = e.1.rounds then rk else e.2.1.winners) []

/-- The runners-up, best first, are in the order of election. -/
def InOrder (s : State) (rk : List AccId) : Prop :=
  (s.runnersUp.map Seat.who).reverse.Sublist rk ∧ rk.Nodup

theorem install_order {cfg : Cfg} {s : State} {w : List (AccId × Nat)} (hv : validResult cfg s w) :
    InOrder (install cfg s w) (w.map Prod.fst) := by
  refine ⟨?_, hv.1⟩
  have e : (install cfg s w).runnersUp.map Seat.who = (newRunnersUp cfg w).map Prod.fst := by
    unfold install toSeats
    simp only [List.map_map, Function.comp_def]
  rw [e]
  unfold newRunnersUp
  rw [List.map_reverse, List.reverse_reverse]
  exact ((List.drop_sublist _ _).map _).trans (backed_ids cfg w)

theorem order_sub {s s' : State} {rk : List AccId} (h : InOrder s rk)
    (hs : (s'.runnersUp.map Seat.who).Sublist (s.runnersUp.map Seat.who)) : InOrder s' rk :=
  ⟨hs.reverse.trans h.1, h.2⟩

theorem doPhragmen_order {cfg : Cfg} {s : State} {res : Option (List (AccId × Nat))}
    {rk : List AccId} (h : InOrder s rk) :
    InOrder (doPhragmen cfg s res)
      (if (doPhragmen cfg s res).rounds = s.rounds then rk else (res.getD []).map Prod.fst) := by
  unfold doPhragmen
  split
  · simpa using h
  split
  · simpa using h
  split
  · simpa using h
  · rename_i w
    split
    · rename_i hv
      have : (install cfg s w).rounds ≠ s.rounds := by
        show s.rounds + 1 ≠ s.rounds
        omega
      rw [if_neg this]
      exact install_order hv
    · simpa using h

theorem step_order {cfg : Cfg} {s : State} {rk : List AccId} (hl : Lists cfg s) (op : Op)
    (h : InOrder s rk) :
    InOrder (step cfg s op).1 (if (step cfg s op).1.rounds = s.rounds then rk else op.winners) := by
  have same : ∀ s', (step cfg s op).1 = s' → s'.rounds = s.rounds →
      (s'.runnersUp.map Seat.who).Sublist (s.runnersUp.map Seat.who) →
      InOrder (step cfg s op).1 (if (step cfg s op).1.rounds = s.rounds then rk else op.winners) := by
    intro s' e hr hs
    rw [e, if_pos hr]
    exact order_sub h hs
  cases op with
  | vote a vs x =>
    cases hv : vote cfg s a vs x with
    | error e => exact same s (by simp [step, attempt, hv]) rfl (List.Sublist.refl _)
    | ok s' =>
      obtain ⟨-, -, -, h4, -, -, -, h8⟩ := vote_effect hv
      exact same s' (by simp [step, attempt, hv]) h8 (by rw [h4])
  | removeVoter a =>
    cases hv : removeVoter s a with
    | error e => exact same s (by simp [step, attempt, hv]) rfl (List.Sublist.refl _)
    | ok s' =>
      unfold removeVoter at hv
      split at hv
      · rename_i hc
        cases hv
        exact same (doRemoveVoter s a) (by simp [step, attempt, removeVoter, hc]) rfl
          (List.Sublist.refl _)
      · cases hv
  | submit a n i =>
    cases hv : submitCandidacy cfg s a n i with
    | error e => exact same s (by simp [step, attempt, hv]) rfl (List.Sublist.refl _)
    | ok s' =>
      obtain ⟨-, -, -, -, -, h8⟩ := submit_effect hv hl
      have hr : s'.runnersUp = s.runnersUp := by
        unfold submitCandidacy at hv
        repeat' split at hv
        all_goals first | (cases hv; rfl) | cases hv
      exact same s' (by simp [step, attempt, hv]) h8 (by rw [hr])
  | renounce a r =>
    cases hv : renounce s a r with
    | error e => exact same s (by simp [step, attempt, hv]) rfl (List.Sublist.refl _)
    | ok s' =>
      have e : (step cfg s (.renounce a r)).1 = s' := by simp [step, attempt, hv]
      cases r with
      | member =>
        simp only [renounce] at hv
        cases h2 : removeAndReplace s a false with
        | error e => rw [h2] at hv; cases hv
        | ok s1 =>
          rw [h2] at hv
          cases hv
          obtain ⟨d, h3, -⟩ := removeAndReplace_spec h2 hl
          exact same _ e h3.rounds (by rw [h3.runnersUp]; exact (List.dropLast_sublist _).map _)
      | runnerUp =>
        have h8 := (renounceRunnerUp_effect (cfg := cfg) hv hl).2.2.2.2.2
        refine same _ e h8 ?_
        change renounceRunnerUp s a = .ok s' at hv
        unfold renounceRunnerUp at hv
        split at hv
        · cases hv
        · cases hv; exact List.eraseP_sublist.map _
      | candidate n =>
        have h8 := (renounceCandidate_effect (cfg := cfg) hv hl).2.2.2.2.2
        refine same _ e h8 ?_
        change renounceCandidate s a n = .ok s' at hv
        unfold renounceCandidate at hv
        split at hv
        · cases hv
        split at hv
        · cases hv
        · cases hv; exact List.Sublist.refl _
  | removeMember a sl re res =>
    cases hv : removeMember cfg s a sl re res with
    | error e => exact same s (by simp [step, attempt, hv]) rfl (List.Sublist.refl _)
    | ok s' =>
      have e : (step cfg s (.removeMember a sl re res)).1 = s' := by simp [step, attempt, hv]
      unfold removeMember at hv
      cases h2 : removeAndReplace s a sl with
      | error e => rw [h2] at hv; cases hv
      | ok s1 =>
        rw [h2] at hv
        simp only [Except.ok.injEq] at hv
        obtain ⟨d, h3, -⟩ := removeAndReplace_spec h2 hl
        have hsub : (s1.runnersUp.map Seat.who).Sublist (s.runnersUp.map Seat.who) := by
          rw [h3.runnersUp]; exact (List.dropLast_sublist _).map _
        cases re with
        | false =>
          have : s1 = s' := by simpa using hv
          subst this
          exact same _ e h3.rounds hsub
        | true =>
          simp only [if_true] at hv
          subst hv
          have h5 := doPhragmen_order (cfg := cfg) (res := res) (order_sub h hsub)
          rw [h3.rounds] at h5
          rw [e]
          cases res with
          | none => exact h5
          | some w => exact h5
  | cleanDefunct =>
    obtain ⟨-, -, -, h4, -, -, -, h8⟩ := cleanDefunct_effect (defunct s) s
    exact same (cleanDefunct s) rfl h8 (by unfold cleanDefunct; rw [h4])
  | block n res =>
    have e : (step cfg s (.block n res)).1 = onInitialize cfg s n res := rfl
    by_cases hc : cfg.term ≠ 0 ∧ n % cfg.term = 0
    · have e2 : onInitialize cfg s n res = doPhragmen cfg s res := by
        unfold onInitialize; rw [if_pos hc]
      rw [e, e2]
      have h5 := doPhragmen_order (cfg := cfg) (res := res) h
      cases res with
      | none => exact h5
      | some w => exact h5
    · refine same s ?_ rfl (List.Sublist.refl _)
      rw [e]; unfold onInitialize; rw [if_neg hc]
  | external b o => exact same _ rfl rfl (List.Sublist.refl _)

theorem run_order {cfg : Cfg} {s0 : State} (hl : Lists cfg s0) (hr : s0.runnersUp = []) (ops : List Op) :
    InOrder (run cfg s0 ops).1 (ranking cfg (run cfg s0 ops).2) := by
  induction ops using List.reverseRecOn with
  | nil =>
    refine ⟨?_, List.nodup_nil⟩
    show (s0.runnersUp.map Seat.who).reverse.Sublist []
    rw [hr]; exact List.Sublist.refl _
  | append_singleton ops op ih =>
    have h := step_order (run_lists hl ops) op ih
    rw [run_append]
    simp only [run]
    unfold ranking at h ⊢
    rw [List.foldl_append]
    exact h

/-- A member who leaves (renouncing, or removed by root without new election) is replaced by the
runner-up elected before all other runners-up, who is then no runner-up any more; nothing else changes
in the three lists. -/
theorem C72_replacement {cfg : Cfg} {b : Bank} {o : AccId → Balance} {ms : List (AccId × Balance)}
    {s0 : State} (h0 : genesis cfg b o ms = some s0) (ops : List Op) (a : AccId) (op : Op)
    (hop : op = .renounce a .member ∨ ∃ sl res, op = .removeMember a sl false res) :
    (a ∉ (run cfg s0 ops).1.members.map Seat.who ∧
      (∃ e, (step cfg (run cfg s0 ops).1 op).2 = .failed e) ∧
      (step cfg (run cfg s0 ops).1 op).1 = (run cfg s0 ops).1) ∨
    (a ∈ (run cfg s0 ops).1.members.map Seat.who ∧ (step cfg (run cfg s0 ops).1 op).2 = .done ∧
      (step cfg (run cfg s0 ops).1 op).1.candidates = (run cfg s0 ops).1.candidates ∧
      (((run cfg s0 ops).1.runnersUp = [] ∧ (step cfg (run cfg s0 ops).1 op).1.runnersUp = [] ∧
          ∀ x, x ∈ (step cfg (run cfg s0 ops).1 op).1.members.map Seat.who ↔
            x ∈ (run cfg s0 ops).1.members.map Seat.who ∧ x ≠ a) ∨
        ∃ r : Seat, (run cfg s0 ops).1.runnersUp = (step cfg (run cfg s0 ops).1 op).1.runnersUp ++ [r] ∧
          (∀ x ∈ (step cfg (run cfg s0 ops).1 op).1.runnersUp.map Seat.who,
            [r.who, x].Sublist (ranking cfg (run cfg s0 ops).2)) ∧
          ∀ x, x ∈ (step cfg (run cfg s0 ops).1 op).1.members.map Seat.who ↔
            (x ∈ (run cfg s0 ops).1.members.map Seat.who ∧ x ≠ a) ∨ x = r.who)) := by
  obtain ⟨h1, -, -, -, -, h6, -⟩ := genesis_lists h0
  have hl := run_lists h1 ops
  have hord := run_order h1 h6 ops
  generalize (run cfg s0 ops).1 = s at hl hord ⊢
  generalize ranking cfg (run cfg s0 ops).2 = rk at hord ⊢
  have main : ∀ (sl : Bool) (s' : State), removeAndReplace s a sl = .ok s' →
      (step cfg s op) = (s', .done) →
      (a ∈ s.members.map Seat.who ∧ (step cfg s op).2 = .done ∧
      (step cfg s op).1.candidates = s.candidates ∧
      ((s.runnersUp = [] ∧ (step cfg s op).1.runnersUp = [] ∧
          ∀ x, x ∈ (step cfg s op).1.members.map Seat.who ↔ x ∈ s.members.map Seat.who ∧ x ≠ a) ∨
        ∃ r : Seat, s.runnersUp = (step cfg s op).1.runnersUp ++ [r] ∧
          (∀ x ∈ (step cfg s op).1.runnersUp.map Seat.who, [r.who, x].Sublist rk) ∧
          ∀ x, x ∈ (step cfg s op).1.members.map Seat.who ↔
            (x ∈ s.members.map Seat.who ∧ x ≠ a) ∨ x = r.who)) := by
    intro sl s' hr e
    obtain ⟨d, h3, -⟩ := removeAndReplace_spec hr hl
    rw [e]
    refine ⟨h3.mem, rfl, h3.candidates, ?_⟩
    have hm := removed_members h3 hl
    cases hlast : s.runnersUp.getLast? with
    | none =>
      rw [List.getLast?_eq_none_iff] at hlast
      refine Or.inl ⟨hlast, by show s'.runnersUp = []; rw [h3.runnersUp, hlast]; rfl, ?_⟩
      intro x
      rw [hm x, hlast]
      simp
    | some r =>
      have hne : s.runnersUp ≠ [] := by intro e; rw [e] at hlast; cases hlast
      have hrs : s.runnersUp = s.runnersUp.dropLast ++ [r] := by
        rw [List.getLast?_eq_some_getLast hne] at hlast
        cases hlast
        exact (List.dropLast_append_getLast hne).symm
      refine Or.inr ⟨r, by show s.runnersUp = s'.runnersUp ++ [r]; rw [h3.runnersUp]; exact hrs, ?_, ?_⟩
      · intro x hx
        have hx' : x ∈ s.runnersUp.dropLast.map Seat.who := by
          have : s'.runnersUp = s.runnersUp.dropLast := h3.runnersUp
          simpa [this] using hx
        refine List.Sublist.trans ?_ hord.1
        rw [hrs, List.map_append, List.reverse_append]
        simp only [List.map_cons, List.map_nil, List.reverse_cons, List.reverse_nil, List.nil_append,
          List.singleton_append]
        exact (List.singleton_sublist.2 (List.mem_reverse.2 hx')).cons_cons _
      · intro x
        rw [hm x, hlast]
        simp only [Option.map_some, Option.some.injEq]
        exact or_congr_right eq_comm
  have fail : ∀ (sl : Bool) (e : Err), removeAndReplace s a sl = .error e →
      a ∉ s.members.map Seat.who := by
    intro sl e hr hmem
    unfold removeAndReplace at hr
    split at hr
    · rename_i hf
      obtain ⟨m, hm, hk⟩ := List.mem_map.1 hmem
      rw [List.find?_eq_none] at hf
      exact absurd hk (by simpa using hf m hm)
    · cases hr
  rcases hop with rfl | ⟨sl, res, rfl⟩
  · cases hr : removeAndReplace s a false with
    | error e =>
      refine Or.inl ⟨fail false e hr, ⟨.invalidRenouncing, ?_⟩, ?_⟩ <;>
        simp [step, attempt, renounce, hr]
    | ok s' =>
      exact Or.inr (main false s' hr (by simp [step, attempt, renounce, hr]))
  · cases hr : removeAndReplace s a sl with
    | error e =>
      refine Or.inl ⟨fail sl e hr, ⟨e, ?_⟩, ?_⟩ <;> simp [step, attempt, removeMember, hr]
    | ok s' =>
      exact Or.inr (main sl s' hr (by simp [step, attempt, removeMember, hr]))

/-- In the example 2 (elected third) replaces 1, not 4 (elected fourth). -/
example : (step exCfg (run exCfg exState exOps).1 (.renounce 1 .member)).1.members.map Seat.who = [2, 3] ∧
    (step exCfg (run exCfg exState exOps).1 (.renounce 1 .member)).1.runnersUp.map Seat.who = [4] ∧
    ranking exCfg (run exCfg exState exOps).2 = [1, 3, 2, 4] := by
  refine ⟨?_, ?_, ?_⟩ <;> decide +kernel

end Verif.Council
