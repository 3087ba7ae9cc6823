import Verif.CouncilLocks
import Verif.TipsProperties
import Verif.DeeperNodeLaw

/-
Property C139: deposits can be taken back at any time. No new definitions of the code; the models are those of
Council, Tips and DeeperNode.
-/

namespace Verif.Exit

/-! ### The council -/

section
open Council

theorem gone {α : Type} {key : α → AccId} {l : List α} {a : AccId} {x : α}
    (h : l.find? (fun y => decide (key y = a)) = some x) (hn : (l.map key).Nodup) :
    a ∉ (l.eraseP (fun y => decide (key y = a))).map key := by
  have hx : key x = a := by simpa using List.find?_some h
  have hp := (find_perm h).map key
  rw [List.map_cons, hx] at hp
  exact (List.nodup_cons.1 (hp.nodup_iff.1 hn)).1

theorem found {α : Type} {key : α → AccId} {l : List α} {a : AccId} (h : a ∈ l.map key) :
    ∃ x, l.find? (fun y => decide (key y = a)) = some x := by
  obtain ⟨y, hy, rfl⟩ := List.mem_map.1 h
  cases hf : l.find? (fun z => decide (key z = key y)) with
  | some x => exact ⟨x, rfl⟩
  | none =>
    have := List.find?_eq_none.1 hf y hy
    simp at this

theorem seats_keys (s : State) : (seats s).map Prod.fst = s.candidates.map Prod.fst ++
    (s.members.map Seat.who ++ s.runnersUp.map Seat.who) := by
  unfold seats
  simp only [List.map_append, List.map_map, Function.comp_def]

/-- Whoever has a role can give it up. -/
theorem renounce_role {cfg : Cfg} {s : State} (hl : Lists cfg s) {a : AccId} (hi : involved s a) :
    ∃ r, (step cfg s (.renounce a r)).2 = .done ∧ ¬ involved (step cfg s (.renounce a r)).1 a ∧
      (step cfg s (.renounce a r)).1.voting = s.voting := by
  have hn := hl.nodup
  rw [seats_keys, List.nodup_append, List.nodup_append] at hn
  obtain ⟨n1, ⟨n2, n3, d2⟩, d1⟩ := hn
  rcases hi with h | h | h
  · refine ⟨.candidate s.candidates.length, ?_⟩
    obtain ⟨x, hx⟩ := found h
    have e : renounce s a (.candidate s.candidates.length) = .ok { s with
        candidates := s.candidates.eraseP (fun c => decide (c.1 = a))
        bank := s.bank.unreserve a x.2 } := by
      show renounceCandidate s a _ = _
      unfold renounceCandidate
      rw [if_neg (Nat.lt_irrefl _), hx]
    simp only [step, attempt, e]
    refine ⟨trivial, ?_, trivial⟩
    rintro (h' | h' | h')
    · exact gone hx n1 h'
    · exact d1 a h a (List.mem_append_left _ h') rfl
    · exact d1 a h a (List.mem_append_right _ h') rfl
  · refine ⟨.member, ?_⟩
    obtain ⟨x, hx⟩ := found h
    cases hr : removeAndReplace s a false with
    | error e =>
      unfold removeAndReplace at hr
      rw [hx] at hr
      cases hr
    | ok s' =>
      obtain ⟨d, hd, hl'⟩ := removeAndReplace_spec hr hl
      have e : renounce s a .member = .ok s' := by
        show (match removeAndReplace s a false with | .error _ => _ | .ok s' => _) = _
        rw [hr]
      simp only [step, attempt, e]
      refine ⟨trivial, ?_, hd.voting⟩
      rw [involved_iff]
      have hp := hd.seats.map Prod.fst
      rw [List.map_cons] at hp
      exact (List.nodup_cons.1 (hp.nodup_iff.1 hl.nodup)).1
  · refine ⟨.runnerUp, ?_⟩
    obtain ⟨x, hx⟩ := found h
    have e : renounce s a .runnerUp = .ok { s with
        runnersUp := s.runnersUp.eraseP (fun m => decide (m.who = a))
        bank := s.bank.unreserve a x.deposit } := by
      show renounceRunnerUp s a = _
      unfold renounceRunnerUp
      rw [hx]
    simp only [step, attempt, e]
    refine ⟨trivial, ?_, trivial⟩
    rintro (h' | h' | h')
    · exact d1 a h' a (List.mem_append_right _ h) rfl
    · exact d2 a h' a h rfl
    · exact gone hx n3 h'

/-- Calls of one's own that end what the pallet holds. -/
def leaves (a : AccId) (op : Op) : Prop := op = .removeVoter a ∨ ∃ r, op = .renounce a r

/-- From a state with ordered lists and backed deposits. -/
theorem council_exit {cfg : Cfg} {s : State} (hl : Lists cfg s) (hb : Backed s) (a : AccId) :
    ∃ calls : List Op, calls.length ≤ 2 ∧ (∀ op ∈ calls, leaves a op) ∧
      (∀ e ∈ (run cfg s calls).2, e.2.2 = .done) ∧
      let s' := (run cfg s calls).1
      ¬ involved s' a ∧ s'.voting.get a = none ∧ s'.bank.reserved a + held s a = s.bank.reserved a ∧
      (s.bank.ed ≤ s.bank.free a → s'.bank.free a = s.bank.free a + held s a) := by
  -- giving up the role
  obtain ⟨c1, hc1, hk1, ho1, s1, hs1, hl1, hb1, hi1, hv1, he1⟩ : ∃ c1 : List Op, c1.length ≤ 1 ∧
      (∀ op ∈ c1, leaves a op) ∧ (∀ e ∈ (run cfg s c1).2, e.2.2 = .done) ∧ ∃ s1, (run cfg s c1).1 = s1 ∧
      Lists cfg s1 ∧ Backed s1 ∧ ¬ involved s1 a ∧ s1.voting = s.voting ∧ Effect s s1 (fun _ => 0) := by
    by_cases hi : involved s a
    · obtain ⟨r, h1, h2, h3⟩ := renounce_role hl hi
      have sp := step_spec (op := .renounce a r) hl rfl
      have ef := (sp.effect hb).congr (l' := fun _ => 0) (fun x => by
        unfold forfeit
        rw [if_neg (fun hh => by cases hh.2.2)])
      refine ⟨[.renounce a r], Nat.le_refl _, ?_, ?_, _, rfl, sp.lists, ef.backed hb, h2, h3, ef⟩
      · intro op ho
        rw [List.mem_singleton.1 ho]
        exact Or.inr ⟨r, rfl⟩
      · intro e he
        rw [List.mem_singleton.1 he]
        exact h1
    · refine ⟨[], Nat.zero_le _, ?_, ?_, s, rfl, hl, hb, hi, rfl, Effect.refl s⟩
      · intro op ho; cases ho
      · intro e he; cases he
  by_cases hv : s1.voting.contains a = true
  · have e : removeVoter s1 a = .ok (doRemoveVoter s1 a) := by unfold removeVoter; rw [if_pos hv]
    have sp := step_spec (op := .removeVoter a) hl1 rfl
    have ef := (sp.effect hb1).congr (l' := fun _ => 0) (fun x => by
      unfold forfeit
      rw [if_neg (fun hh => by cases hh.2.2)])
    have est : step cfg s1 (.removeVoter a) = (doRemoveVoter s1 a, .done) := by simp only [step, attempt, e]
    have hrun : run cfg s (c1 ++ [.removeVoter a]) =
        (doRemoveVoter s1 a, (run cfg s c1).2 ++ [(s1, .removeVoter a, .done)]) := by
      have : ∀ (l : List Op) (t : State), (run cfg t l).1 = s1 → run cfg t (l ++ [.removeVoter a]) =
          (doRemoveVoter s1 a, (run cfg t l).2 ++ [(s1, .removeVoter a, .done)]) := by
        intro l
        induction l with
        | nil =>
          intro t ht
          have ht' : t = s1 := ht
          subst ht'
          simp only [List.nil_append, run, est]
        | cons op l ih =>
          intro t ht
          have := ih (step cfg t op).1 ht
          simp only [List.cons_append, run, this]
      exact this c1 s hs1
    rw [est] at ef
    dsimp only at ef
    have hno : ¬ involved (doRemoveVoter s1 a) a := hi1
    have hvn : (doRemoveVoter s1 a).voting.get a = none := by
      unfold doRemoveVoter
      exact FMap.get_erase_self _ _
    have hz : held (doRemoveVoter s1 a) a = 0 := by
      unfold held
      rw [seatDeposit_zero hno, hvn]
      rfl
    refine ⟨c1 ++ [.removeVoter a], ?_, ?_, ?_, ?_⟩
    · rw [List.length_append, List.length_singleton]; omega
    · intro op ho
      rcases List.mem_append.1 ho with h | h
      · exact hk1 op h
      · rw [List.mem_singleton.1 h]; exact Or.inl rfl
    · rw [hrun]
      intro e he
      rcases List.mem_append.1 he with h | h
      · exact ho1 e h
      · rw [List.mem_singleton.1 h]
    · rw [hrun]
      dsimp only
      have r1 := he1.reserved a
      have r2 := ef.reserved a
      rw [hz] at r2
      refine ⟨hno, hvn, by omega, fun hed => ?_⟩
      obtain ⟨t1, t2⟩ := he1.total a hed
      obtain ⟨-, t3⟩ := ef.total a t1
      simp only [Bank.total] at t2 t3
      omega
  · have hvn : s1.voting.get a = none := by
      cases hg : s1.voting.get a with
      | none => rfl
      | some v => exact absurd ((FMap.contains_iff _ _).2 ⟨v, hg⟩) hv
    have hz : held s1 a = 0 := by
      unfold held
      rw [seatDeposit_zero hi1, hvn]
      rfl
    refine ⟨c1, by omega, hk1, ho1, ?_⟩
    rw [hs1]
    dsimp only
    have r1 := he1.reserved a
    rw [hz] at r1
    refine ⟨hi1, hvn, by omega, fun hed => ?_⟩
    obtain ⟨t1, t2⟩ := he1.total a hed
    simp only [Bank.total] at t2
    omega

theorem run_app (cfg : Cfg) (l m : List Op) : ∀ s, (run cfg s (l ++ m)).1 = (run cfg (run cfg s l).1 m).1 := by
  induction l with
  | nil => intro s; rfl
  | cons op l ih => intro s; exact ih _

/-- C139, council. In every reachable state everybody can end their part in the elections with at most two calls of
their own: resigning from their role and withdrawing their vote. Both succeed. Everything the pallet held of them is
free again and none of it is lost; their votes are gone and nothing is locked for them any more. -/
theorem C139_council {cfg : Cfg} {b : Bank} {o : AccId → Balance} {ms : List (AccId × Balance)}
    {s0 : State} (h0 : genesis cfg b o ms = some s0) (ops : List Op) (he : EnvOk cfg s0 ops) (a : AccId) :
    let s := (run cfg s0 ops).1
    ∃ calls : List Op, calls.length ≤ 2 ∧ (∀ op ∈ calls, op = .removeVoter a ∨ ∃ r, op = .renounce a r) ∧
      (∀ e ∈ (run cfg s calls).2, e.2.2 = .done) ∧
      let s' := (run cfg s calls).1
      (a ∉ s'.candidates.map Prod.fst ∧ a ∉ s'.members.map Seat.who ∧ a ∉ s'.runnersUp.map Seat.who) ∧
      s'.voting.get a = none ∧ s'.bank.frozen a = s'.otherLock a ∧
      s'.bank.reserved a + held s a = s.bank.reserved a ∧
      (s.bank.ed ≤ s.bank.free a → s'.bank.free a = s.bank.free a + held s a) := by
  intro s
  obtain ⟨h1, h2, -⟩ := genesis_lists h0
  have hl := run_lists h1 ops
  have hb := run_backed h1 (fun a => by rw [h2 a]; exact Nat.zero_le _) ops he
  obtain ⟨calls, c1, c2, c3, c4, c5, c6, c7⟩ := council_exit hl hb a
  refine ⟨calls, c1, c2, c3, ⟨fun h => c4 (Or.inl h), fun h => c4 (Or.inr (Or.inl h)),
    fun h => c4 (Or.inr (Or.inr h))⟩, c5, ?_, c6, c7⟩
  have := (C73_locked h0 (ops ++ calls) a).2
  rw [run_app] at this
  exact this c5

/-- Account 1 is a member and votes; 2 is a runner-up and votes; after their calls nothing is held of them. -/
example :
    let s := (run exCfg exState exOps).1
    let s' := (run exCfg s [.renounce 1 .member, .removeVoter 1, .renounce 2 .runnerUp, .removeVoter 2]).1
    1 ∈ s.members.map Seat.who ∧ held s 1 = 112 ∧ s.bank.reserved 1 = 112 ∧ s.bank.free 1 = 888 ∧
    s'.bank.reserved 1 = 0 ∧ s'.bank.free 1 = 1000 ∧ s.bank.frozen 1 = 200 ∧ s'.bank.frozen 1 = 0 := by
  decide +kernel

end

/-! ### Tips -/

section
open Tips

theorem retract_ok (cfg : Cfg) (s : State) {a : AccId} {h : Nat} {t : OpenTip} (ht : s.open_.get h = some t)
    (hf : t.finder = a) : step cfg s (.retract a h) =
      ({ s with bank := giveBack s.bank t, reasons := s.reasons.erase t.reason, open_ := s.open_.erase h }, .done) := by
  unfold step
  simp only [body, retract, ht]
  rw [if_neg (fun hh => hh hf)]
  rfl

theorem tips_exit (cfg : Cfg) (a : AccId) : ∀ (n : Nat) (s : State), depositsOf s a = n → Backed s →
    ∃ calls : List Op, (∀ op ∈ calls, ∃ h, op = .retract a h) ∧ (∀ e ∈ (run cfg s calls).2, e.2.2 = .done) ∧
      let s' := (run cfg s calls).1
      (∀ h t, s'.open_.get h = some t → t.finder = a → t.deposit = 0) ∧
      s'.bank.reserved a + depositsOf s a = s.bank.reserved a ∧
      (s.bank.ed ≤ s.bank.free a → s'.bank.free a = s.bank.free a + depositsOf s a) ∧
      ∀ x, x ≠ a → s'.bank.acct x = s.bank.acct x := by
  intro n
  induction n using Nat.strongRecOn with
  | ind n ih =>
    intro s hn hb
    by_cases hex : ∃ h t, s.open_.get h = some t ∧ t.finder = a ∧ t.deposit ≠ 0
    · obtain ⟨h, t, ht, hf, hd⟩ := hex
      have hst := retract_ok cfg s ht hf
      have hok : (step cfg s (.retract a h)).2 = .done := by rw [hst]
      obtain ⟨-, r1, r2, r3, -⟩ := C33_retract cfg s hb a h t ht hok
      have hdep : ∀ x, depositsOf (step cfg s (.retract a h)).1 x + (if t.finder = x then t.deposit else 0) =
          depositsOf s x := by
        intro x
        rw [hst]
        have := FMap.sum_erase s.open_ h fun _ t => if t.finder = x then t.deposit else 0
        rw [FMap.at?_some ht] at this
        exact this
      have hda := hdep a
      rw [if_pos hf] at hda
      have hb' : Backed (step cfg s (.retract a h)).1 := by
        intro x
        by_cases hx : x = a
        · subst hx
          have := hb x
          omega
        · have h1 := hdep x
          rw [if_neg (fun hh => hx (hh.symm.trans hf))] at h1
          have h2 := hb x
          have h3 : (step cfg s (.retract a h)).1.bank.reserved x = s.bank.reserved x := by
            unfold Bank.reserved; rw [r3 x hx]
          omega
      obtain ⟨calls, c1, c2, c3, c4, c5, c6⟩ := ih _ (by omega) _ rfl hb'
      refine ⟨.retract a h :: calls, ?_, ?_, c3, ?_, ?_, ?_⟩
      · intro op ho
        rcases List.mem_cons.1 ho with rfl | ho
        · exact ⟨h, rfl⟩
        · exact c1 op ho
      · intro e he'
        rcases List.mem_cons.1 he' with rfl | he'
        · exact hok
        · exact c2 e he'
      · show (run cfg (step cfg s (.retract a h)).1 calls).1.bank.reserved a + _ = _
        omega
      · intro hed
        show (run cfg (step cfg s (.retract a h)).1 calls).1.bank.free a = _
        have hf' := r2 (by omega)
        have hed' : (step cfg s (.retract a h)).1.bank.ed = s.bank.ed := by
          rw [hst]
          show (giveBack s.bank t).ed = _
          unfold giveBack Bank.unreserve
          split
          · rfl
          · split <;> simp
        have := c5 (by omega)
        omega
      · intro x hx
        exact (c6 x hx).trans (r3 x hx)
    · have hz : ∀ h t, s.open_.get h = some t → t.finder = a → t.deposit = 0 := by
        intro h t ht hf
        by_cases hd : t.deposit = 0
        · exact hd
        · exact absurd ⟨h, t, ht, hf, hd⟩ hex
      have h0 : depositsOf s a = 0 := by
        unfold depositsOf
        apply FMap.sum_eq_zero
        intro k t ht
        split
        · rename_i hf; exact hz k t ht hf
        · rfl
      refine ⟨[], (fun op ho => by cases ho), (fun e he => by cases he), hz, ?_, ?_, fun x _ => rfl⟩
      · show s.bank.reserved a + _ = _; omega
      · intro _; show s.bank.free a = _; omega

/-- C139, tips. In every reachable state a finder can take back all deposits of open tips by retracting them: every
such call succeeds, also after the tip has begun to close, and nothing is lost. -/
theorem C139_tips (cfg : Cfg) (hinj : ∀ a b c d, cfg.hashOf a b = cfg.hashOf c d → a = c ∧ b = d)
    (bank : Bank) (ms : List AccId) (ops : List Op)
    (ho : OutsideRespectsDeposits (run cfg (genesis bank ms) ops).2) (a : AccId) :
    let s := (run cfg (genesis bank ms) ops).1
    ∃ calls : List Op, (∀ op ∈ calls, ∃ h, op = .retract a h) ∧ (∀ e ∈ (run cfg s calls).2, e.2.2 = .done) ∧
      let s' := (run cfg s calls).1
      (∀ h t, s'.open_.get h = some t → t.finder = a → t.deposit = 0) ∧
      s'.bank.reserved a + depositsOf s a = s.bank.reserved a ∧
      (s.bank.ed ≤ s.bank.free a → s'.bank.free a = s.bank.free a + depositsOf s a) ∧
      ∀ x, x ≠ a → s'.bank.acct x = s.bank.acct x := by
  intro s
  obtain ⟨-, h2, -⟩ := run_deposits hinj ops _ (genesis_kinv cfg bank ms) (genesis_backed bank ms) ho
  exact tips_exit cfg a _ s rfl h2

/-- Account 8 retracts a tip that is already closing. -/
example :
    let s := (run exCfg (genesis exBank [1, 2, 3, 4]) exOps).1
    let r := step exCfg s (.retract 8 (Nat.pair 7 5))
    ((s.open_.get (Nat.pair 7 5)).map (fun t => (t.finder, t.deposit, t.closes.isSome))) = some (8, 11, true) ∧
    r.2 = .done ∧ s.bank.reserved 8 = 11 ∧ r.1.bank.reserved 8 = 0 ∧ r.1.bank.free 8 = 1000 := by
  decide +kernel

end

/-! ### Devices -/

section
open DeeperNode

/-- C139, devices. In every reachable state the owner of a device gets the whole deposit back with one call, which
succeeds; without a device nothing is on deposit (C24). -/
theorem C139_device (cfg : Cfg) (bank : Bank) (rewards : List (AccId × Nat)) (ops : List Op)
    (a : AccId) (ho : OutsideRespectsLock cfg (run cfg (genesis bank rewards) ops).2) :
    let s := (run cfg (genesis bank rewards) ops).1
    let s' := (step cfg s (.unregister a)).1
    s.devices.contains a = true →
    (step cfg s (.unregister a)).2 = .done ∧ s'.devices.contains a = false ∧
    s'.bank.reserved a + cfg.minLock = s.bank.reserved a ∧
    (s.bank.ed ≤ s.bank.free a + cfg.minLock → s'.bank.free a = s.bank.free a + cfg.minLock) := by
  intro s s' hc
  have hb : unregister cfg s a = .ok { tryRemove s a with
      devices := (tryRemove s a).devices.erase a, bank := (tryRemove s a).bank.unreserve a cfg.minLock } := by
    unfold unregister
    rw [hc]
    rfl
  have hst : step cfg s (.unregister a) = ({ tryRemove s a with
      devices := (tryRemove s a).devices.erase a, bank := (tryRemove s a).bank.unreserve a cfg.minLock }, .done) := by
    unfold step
    simp only [body, hb]
    rfl
  have hd : (step cfg s (.unregister a)).2 = .done := by rw [hst]
  obtain ⟨h1, h2, -⟩ := C24_refund_exact cfg bank rewards ops a ho hd
  refine ⟨hd, ?_, h1, h2⟩
  show (step cfg s (.unregister a)).1.devices.contains a = false
  rw [hst]
  cases hx : ((tryRemove s a).devices.erase a).contains a with
  | false => rfl
  | true =>
    obtain ⟨v, hv⟩ := (FMap.contains_iff _ _).1 hx
    rw [FMap.get_erase_self] at hv
    cases hv

/-- Account 1 registers a device and a server and takes the deposit back. -/
example :
    let s := (run exCfg (genesis exBank []) [.register 1 us, .registerServer 1 5]).1
    let r := step exCfg s (.unregister 1)
    s.bank.reserved 1 = 100 ∧ s.bank.free 1 = 900 ∧ r.2 = .done ∧ r.1.bank.reserved 1 = 0 ∧ r.1.bank.free 1 = 1000 := by
  decide +kernel

end

end Verif.Exit
