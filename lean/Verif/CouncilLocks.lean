import Verif.CouncilProperties

/-
Property C73 of the council elections: the stake of a vote is locked as long as the vote counts.
-/

namespace Verif.Council

/-- Locks agree with the balances: the frozen amount is the larger of this pallet's lock and the
others'; a voter (other than the genesis members `g`) has at least the recorded stake locked; somebody
without votes has no lock of this pallet. -/
structure Locks (g : List AccId) (s : State) : Prop where
  frozen : ∀ a, s.bank.frozen a = max ((s.lock.get a).getD 0) (s.otherLock a)
  locked : ∀ a v, s.voting.get a = some v → a ∉ g → v.stake ≤ (s.lock.get a).getD 0
  none : ∀ a, s.voting.get a = none → s.lock.get a = none

theorem reserve_frozen {b b' : Bank} {a : AccId} {v : Balance} (h : b.reserve a v = .ok b') :
    b'.frozen = b.frozen := by
  unfold Bank.reserve at h
  split at h
  · cases h; rfl
  split at h
  · cases h
  split at h
  · cases h
  split at h
  · cases h
  · cases h; simp

theorem unreserve_frozen (b : Bank) (a : AccId) (v : Balance) : (b.unreserve a v).frozen = b.frozen := by
  unfold Bank.unreserve; split <;> simp

theorem slashReserved_frozen (b : Bank) (a : AccId) (v : Balance) :
    (b.slashReserved a v).1.frozen = b.frozen := by
  unfold Bank.slashReserved; split <;> simp

theorem slashLosers_frozen (keep : List AccId) (l : List (AccId × Balance)) (b : Bank) :
    (slashLosers b keep l).frozen = b.frozen := by
  induction l generalizing b with
  | nil => rfl
  | cons c l ih =>
    obtain ⟨c, d⟩ := c
    unfold slashLosers
    rw [ih]
    split
    · rfl
    · exact slashReserved_frozen b c d

theorem Locks.congr {g : List AccId} {s s' : State} (h : Locks g s)
    (e1 : s'.bank.frozen = s.bank.frozen) (e2 : s'.lock = s.lock) (e3 : s'.otherLock = s.otherLock)
    (e4 : s'.voting = s.voting) : Locks g s' :=
  ⟨fun a => by rw [e1, e2, e3]; exact h.frozen a, fun a v => by rw [e4, e2]; exact h.locked a v,
    fun a => by rw [e4, e2]; exact h.none a⟩

theorem locks_remove {g : List AccId} {s : State} (a : AccId) (h : Locks g s) :
    Locks g (doRemoveVoter s a) := by
  have e1 : (doRemoveVoter s a).bank.frozen =
      fun x => if x = a then s.otherLock a else s.bank.frozen x := unreserve_frozen _ _ _
  have e2 : (doRemoveVoter s a).lock = s.lock.erase a := rfl
  have e3 : (doRemoveVoter s a).voting = s.voting.erase a := rfl
  refine ⟨?_, ?_, ?_⟩
  · intro x
    rw [e1, e2]
    show _ = max _ (s.otherLock x)
    by_cases hx : x = a
    · subst hx; simp
    · rw [FMap.get_erase_ne _ hx]; simp only [if_neg hx]; exact h.frozen x
  · intro x v
    rw [e3, e2]
    by_cases hx : x = a
    · subst hx; rw [FMap.get_erase_self]; intro hh; cases hh
    · rw [FMap.get_erase_ne _ hx, FMap.get_erase_ne _ hx]; exact h.locked x v
  · intro x
    rw [e3, e2]
    by_cases hx : x = a
    · subst hx; rw [FMap.get_erase_self, FMap.get_erase_self]; exact fun _ => rfl
    · rw [FMap.get_erase_ne _ hx, FMap.get_erase_ne _ hx]; exact h.none x

theorem locks_vote {g : List AccId} {s : State} (a : AccId) (vs : List AccId) (x n : Balance)
    (h : Locks g s) : Locks g (recordVote s a vs x n) := by
  unfold recordVote setLock
  by_cases h0 : min x (s.bank.free a) = 0
  · simp only [h0, if_true]
    refine ⟨h.frozen, ?_, ?_⟩
    · intro c v
      show (s.voting.insert a _).get c = some v → _
      rw [FMap.get_insert]
      split
      · intro e _; cases e; exact Nat.zero_le _
      · exact h.locked c v
    · intro c
      show (s.voting.insert a _).get c = Option.none → _
      rw [FMap.get_insert]
      split
      · intro e; cases e
      · exact h.none c
  · simp only [h0, if_false]
    refine ⟨?_, ?_, ?_⟩
    · intro c
      show (if c = a then max _ (s.otherLock a) else s.bank.frozen c) =
        max (((s.lock.insert a _).get c).getD 0) (s.otherLock c)
      by_cases hc : c = a
      · subst hc; rw [FMap.get_insert_self]; simp
      · rw [if_neg hc, FMap.get_insert_ne _ _ hc]; exact h.frozen c
    · intro c v
      show (s.voting.insert a _).get c = some v → _ → v.stake ≤ ((s.lock.insert a _).get c).getD 0
      by_cases hc : c = a
      · subst hc
        rw [FMap.get_insert_self, FMap.get_insert_self]
        intro e _; cases e; exact Nat.le_refl _
      · rw [FMap.get_insert_ne _ _ hc, FMap.get_insert_ne _ _ hc]; exact h.locked c v
    · intro c
      show (s.voting.insert a _).get c = Option.none → (s.lock.insert a _).get c = Option.none
      by_cases hc : c = a
      · subst hc; rw [FMap.get_insert_self]; intro e; cases e
      · rw [FMap.get_insert_ne _ _ hc, FMap.get_insert_ne _ _ hc]; exact h.none c

theorem locks_install {g : List AccId} {s : State} (cfg : Cfg) (w : List (AccId × Nat))
    (h : Locks g s) : Locks g (install cfg s w) :=
  h.congr (slashLosers_frozen _ _ _) rfl rfl rfl

theorem locks_phragmen {g : List AccId} {s : State} (cfg : Cfg) (res : Option (List (AccId × Nat)))
    (h : Locks g s) : Locks g (doPhragmen cfg s res) := by
  rcases doPhragmen_cases cfg s res with e | ⟨w, -, e⟩
  · rw [e]; exact h
  · rw [e]; exact locks_install cfg w h

theorem locks_replace {g : List AccId} {s s' : State} {a : AccId} {sl : Bool}
    (hr : removeAndReplace s a sl = .ok s') (h : Locks g s) : Locks g s' := by
  unfold removeAndReplace at hr
  split at hr
  · cases hr
  · simp only [Except.ok.injEq] at hr
    subst hr
    refine h.congr ?_ rfl rfl rfl
    cases sl with
    | true => exact slashReserved_frozen _ _ _
    | false => exact unreserve_frozen _ _ _

theorem locks_attempt {g : List AccId} {s : State} (h : Locks g s) (r : Except Err State)
    (hr : ∀ s', r = .ok s' → Locks g s') : Locks g (attempt s r).1 := by
  cases r with
  | error e => exact h
  | ok s' => exact hr s' rfl

theorem locks_step {g : List AccId} {s : State} (cfg : Cfg) (op : Op) (h : Locks g s) :
    Locks g (step cfg s op).1 := by
  cases op with
  | vote a vs x =>
    refine locks_attempt h _ (fun s' hv => ?_)
    unfold vote at hv
    split at hv; · cases hv
    split at hv; · cases hv
    split at hv; · cases hv
    split at hv; · cases hv
    split at hv; · cases hv
    split at hv
    · cases hv
    · rename_i b hadj
      cases hv
      refine locks_vote a vs x _ (h.congr ?_ rfl rfl rfl)
      unfold adjustDeposit at hadj
      split at hadj
      · split at hadj
        · rename_i hres; cases hadj; exact reserve_frozen hres
        · cases hadj
      · split at hadj
        · cases hadj; exact unreserve_frozen _ _ _
        · cases hadj; rfl
  | removeVoter a =>
    refine locks_attempt h _ (fun s' hv => ?_)
    unfold removeVoter at hv
    split at hv
    · cases hv; exact locks_remove a h
    · cases hv
  | submit a n i =>
    refine locks_attempt h _ (fun s' hv => ?_)
    unfold submitCandidacy at hv
    split at hv; · cases hv
    split at hv; · cases hv
    split at hv; · cases hv
    split at hv; · cases hv
    split at hv; · cases hv
    split at hv; · cases hv
    split at hv
    · cases hv
    · rename_i hres
      cases hv
      exact h.congr (reserve_frozen hres) rfl rfl rfl
  | renounce a r =>
    refine locks_attempt h _ (fun s' hv => ?_)
    cases r with
    | member =>
      simp only [renounce] at hv
      cases h2 : removeAndReplace s a false with
      | error e => rw [h2] at hv; cases hv
      | ok s1 => rw [h2] at hv; cases hv; exact locks_replace h2 h
    | runnerUp =>
      change renounceRunnerUp s a = .ok s' at hv
      unfold renounceRunnerUp at hv
      split at hv
      · cases hv
      · cases hv; exact h.congr (unreserve_frozen _ _ _) rfl rfl rfl
    | candidate n =>
      change renounceCandidate s a n = .ok s' at hv
      unfold renounceCandidate at hv
      split at hv
      · cases hv
      split at hv
      · cases hv
      · cases hv; exact h.congr (unreserve_frozen _ _ _) rfl rfl rfl
  | removeMember a sl re res =>
    refine locks_attempt h _ (fun s' hv => ?_)
    unfold removeMember at hv
    split at hv
    · cases hv
    · rename_i s1 h2
      simp only [Except.ok.injEq] at hv
      subst hv
      have h3 := locks_replace h2 h
      split
      · exact locks_phragmen cfg res h3
      · exact h3
  | cleanDefunct =>
    show Locks g ((defunct s).foldl doRemoveVoter s)
    generalize defunct s = l
    induction l generalizing s with
    | nil => exact h
    | cons a l ih => exact ih (locks_remove a h)
  | block n res =>
    show Locks g (onInitialize cfg s n res)
    unfold onInitialize
    split
    · exact locks_phragmen cfg res h
    · exact h
  | external b o => exact ⟨fun a => rfl, h.locked, h.none⟩

theorem locks_genesis {cfg : Cfg} {b : Bank} {o : AccId → Balance} {ms : List (AccId × Balance)}
    {s : State} (h : genesis cfg b o ms = some s) : Locks (ms.map Prod.fst) s := by
  unfold genesis at h
  split at h
  · cases h
    refine ⟨?_, ?_, ?_⟩
    · intro a
      show o a = max (((∅ : FMap AccId Balance).get a).getD 0) (o a)
      rw [FMap.get_empty]; simp
    · have key : ∀ (l : List (AccId × Balance)) (acc : FMap AccId Voter) (a : AccId),
          a ∉ l.map Prod.fst →
          (l.foldl (fun v m => v.insert m.1 ⟨[m.1], m.2, 0⟩) acc).get a = acc.get a := by
        intro l
        induction l with
        | nil => intro acc a _; rfl
        | cons m l ih =>
          intro acc a ha
          simp only [List.map_cons, List.mem_cons, not_or] at ha
          rw [List.foldl_cons, ih _ a ha.2, FMap.get_insert_ne _ _ ha.1]
      intro a v hv ha
      have e := (key ms ∅ a ha).symm.trans hv
      rw [FMap.get_empty] at e
      cases e
    · intro a _; exact FMap.get_empty a
  · cases h

/-- After any history: a voter (other than a genesis member who has not left) has at least the recorded
stake frozen, so that no payment can bring the free balance below it; somebody who does not vote is
only bound by the locks of other pallets. -/
theorem C73_locked {cfg : Cfg} {b : Bank} {o : AccId → Balance} {ms : List (AccId × Balance)}
    {s0 : State} (h0 : genesis cfg b o ms = some s0) (ops : List Op) (a : AccId) :
    (∀ v, (run cfg s0 ops).1.voting.get a = some v → a ∉ ms.map Prod.fst →
      v.stake ≤ (run cfg s0 ops).1.bank.frozen a ∧
      ∀ x k b', (run cfg s0 ops).1.bank.withdraw a x k = .ok b' → x ≠ 0 →
        v.stake + x ≤ (run cfg s0 ops).1.bank.free a) ∧
    ((run cfg s0 ops).1.voting.get a = none →
      (run cfg s0 ops).1.bank.frozen a = (run cfg s0 ops).1.otherLock a) := by
  have h : Locks (ms.map Prod.fst) (run cfg s0 ops).1 := by
    have h1 := locks_genesis h0
    clear h0
    induction ops generalizing s0 with
    | nil => exact h1
    | cons op ops ih => exact ih (locks_step cfg op h1)
  generalize (run cfg s0 ops).1 = s at h ⊢
  refine ⟨?_, ?_⟩
  · intro v hv hg
    have h1 := h.locked a v hv hg
    have h2 := h.frozen a
    have h3 : v.stake ≤ s.bank.frozen a := by rw [h2]; exact Nat.le_trans h1 (Nat.le_max_left _ _)
    refine ⟨h3, ?_⟩
    intro x k b' hw hx
    unfold Bank.withdraw at hw
    rw [if_neg hx] at hw
    split at hw
    · cases hw
    split at hw
    · cases hw
    split at hw
    · cases hw
    · rename_i _ _ h4
      omega
  · intro hn
    have h2 := h.frozen a
    rw [h.none a hn] at h2
    simpa using h2

/-- In the example 5 voted with 300, which is frozen; 3 does not vote. -/
example : ((run exCfg exState exOps).1.voting.get 5).map Voter.stake = some 300 ∧
    5 ∉ [((4 : AccId), (50 : Balance))].map Prod.fst ∧
    (run exCfg exState exOps).1.bank.frozen 5 = 300 ∧
    ((run exCfg exState exOps).1.voting.get 3).isNone = true := by
  refine ⟨?_, ?_, ?_, ?_⟩ <;> decide +kernel

end Verif.Council
