import Verif.OperationProperties

/-
Property C149: the totals the bridge keeps per chain are the sums of the accepted transfers, and what the bridge fund holds follows
from them. No new definitions of the code.
-/

namespace Verif.Operation

/-- Amount an event has moved to other chains accepted by `k`. -/
def outEvent (k : String → Bool) : State × Op × Out → Nat
  | (_, .bridgeOut _ _ v c, .done) => if k c then v else 0
  | _ => 0

/-- Amount an event has brought back from other chains accepted by `k`. -/
def inEvent (k : String → Bool) : State × Op × Out → Nat
  | (_, .bridgeIn _ _ v c, .done) => if k c then v else 0
  | _ => 0

/-- Sum of the accepted transfers to the chains `k`. -/
def sentTo (k : String → Bool) (t : List (State × Op × Out)) : Nat := (t.map (outEvent k)).sum

/-- Sum of the accepted transfers from the chains `k`. -/
def backFrom (k : String → Bool) (t : List (State × Op × Out)) : Nat := (t.map (inEvent k)).sum

theorem books_frame (cfg : Cfg) (s : State) (op : Op) (h1 : ∀ w x v c, op ≠ .bridgeOut w x v c) (h2 : ∀ w x v c, op ≠ .bridgeIn w x v c) :
    (step cfg s op).1.toOther = s.toOther ∧ (step cfg s op).1.fromOther = s.fromOther := by
  rcases step_cases cfg s op with ⟨r, hb, hs⟩ | ⟨e, hb, hs⟩
  swap
  · rw [hs]; exact ⟨rfl, rfl⟩
  rw [hs]
  cases op with
  | bridgeOut w x v c => exact absurd rfl (h1 w x v c)
  | bridgeIn w x v c => exact absurd rfl (h2 w x v c)
  | setFund who f =>
    simp only [body] at hb
    obtain ⟨s', hr, hs'⟩ := map_ok hb
    rw [← hs']
    unfold setFund at hr
    split at hr
    · cases hr
    · cases hr; exact ⟨rfl, rfl⟩
  | forceRemoveLock r w f =>
    simp only [body] at hb
    obtain ⟨s', hr, hs'⟩ := map_ok hb
    rw [← hs']
    unfold forceRemoveLock at hr
    split at hr
    · cases hr
    · cases hr; exact ⟨rfl, rfl⟩
  | forceReserve x w v =>
    simp only [body] at hb
    obtain ⟨s', hr, hs'⟩ := map_ok hb
    rw [← hs']
    unfold forceReserve at hr
    split at hr
    · cases hr
    · obtain ⟨b, _, rfl⟩ := map_ok hr; exact ⟨rfl, rfl⟩
  | setLimits r x d =>
    simp only [body] at hb
    obtain ⟨s', hr, hs'⟩ := map_ok hb
    rw [← hs']
    unfold setLimits at hr
    split at hr
    · cases hr
    · cases hr; exact ⟨rfl, rfl⟩
  | unstakingRelease x a d m t =>
    simp only [body] at hb
    obtain ⟨s', hr, hs'⟩ := map_ok hb
    rw [← hs', (unstakingRelease_ok hr).2.2.2.2.2]
    exact ⟨rfl, rfl⟩
  | removeInfos x l =>
    simp only [body] at hb
    obtain ⟨s', hr, hs'⟩ := map_ok hb
    rw [← hs', removeInfos_ok hr]
    exact ⟨rfl, rfl⟩
  | burnForEzc x v =>
    simp only [body] at hb
    obtain ⟨s', hr, hs'⟩ := map_ok hb
    rw [← hs']
    unfold burnForEzc at hr
    split at hr
    · cases hr
    · obtain ⟨b, _, rfl⟩ := map_ok hr; exact ⟨rfl, rfl⟩
  | applyBridge w v c => simp only [body] at hb; cases hb; exact ⟨rfl, rfl⟩
  | unlockAssets r x d v f =>
    simp only [body] at hb
    obtain ⟨s', hr, hs'⟩ := map_ok hb
    rw [← hs']
    unfold unlockAssets at hr
    split at hr
    · cases hr
    · obtain ⟨b, _, rfl⟩ := map_ok hr; exact ⟨rfl, rfl⟩
  | finalize =>
    simp only [body] at hb
    cases hb
    show (finalize cfg s).1.toOther = s.toOther ∧ (finalize cfg s).1.fromOther = s.fromOther
    unfold finalize
    split
    · exact ⟨rfl, rfl⟩
    · unfold releaseStaking
      split <;> exact ⟨rfl, rfl⟩
  | external dt b p k => simp only [body] at hb; cases hb; exact ⟨rfl, rfl⟩

theorem bridge_out_result (cfg : Cfg) (s : State) (w x : AccId) (v : Balance) (c : String) :
    (step cfg s (.bridgeOut w x v c)).2 = .done ∨ ∃ e, (step cfg s (.bridgeOut w x v c)).2 = .failed e := by
  rcases step_cases cfg s (.bridgeOut w x v c) with ⟨r, hb, hs⟩ | ⟨e, hb, hs⟩
  · simp only [body] at hb
    obtain ⟨s', _, hs'⟩ := map_ok hb
    left; rw [hs, ← hs']
  · right; exact ⟨e, by rw [hs]⟩

theorem bridge_in_result (cfg : Cfg) (s : State) (w x : AccId) (v : Balance) (c : String) :
    (step cfg s (.bridgeIn w x v c)).2 = .done ∨ ∃ e, (step cfg s (.bridgeIn w x v c)).2 = .failed e := by
  rcases step_cases cfg s (.bridgeIn w x v c) with ⟨r, hb, hs⟩ | ⟨e, hb, hs⟩
  · simp only [body] at hb
    obtain ⟨s', _, hs'⟩ := map_ok hb
    left; rw [hs, ← hs']
  · right; exact ⟨e, by rw [hs]⟩

theorem books_step (cfg : Cfg) (s : State) (op : Op) (chain : String) (h1 : (s.toOther.get chain).getD 0 ≤ 2 ^ 128 - 1)
    (h2 : (s.fromOther.get chain).getD 0 ≤ 2 ^ 128 - 1) :
    let r := step cfg s op
    (r.1.toOther.get chain).getD 0 = min ((s.toOther.get chain).getD 0 + outEvent (fun c => decide (c = chain)) (s, op, r.2)) (2 ^ 128 - 1) ∧
    (r.1.fromOther.get chain).getD 0 = min ((s.fromOther.get chain).getD 0 + inEvent (fun c => decide (c = chain)) (s, op, r.2)) (2 ^ 128 - 1) := by
  intro r
  by_cases ho : ∃ w x v c, op = .bridgeOut w x v c
  · obtain ⟨w, x, v, c, rfl⟩ := ho
    rcases bridge_out_result cfg s w x v c with hd | ⟨e, hd⟩
    · obtain ⟨-, f, -, -, -, -, -, g1, g2, g3⟩ := C28_bridge_out cfg s w x v c hd
      have e1 : r.2 = .done := hd
      rw [e1]
      change r.1.fromOther = s.fromOther at g3
      rw [g3]
      simp only [outEvent, inEvent, decide_eq_true_eq]
      refine ⟨?_, by omega⟩
      by_cases hc : c = chain
      · subst hc
        rw [if_pos rfl]
        exact g1
      · rw [if_neg hc]
        have := g2 chain (fun h => hc h.symm)
        change r.1.toOther.get chain = _ at this
        rw [this]
        omega
    · have e1 : r.2 = .failed e := hd
      have e2 : r.1 = s := C28_failed_call_changes_nothing cfg s _ e hd
      rw [e1, e2]
      simp only [outEvent, inEvent]
      omega
  by_cases hn : ∃ w x v c, op = .bridgeIn w x v c
  · obtain ⟨w, x, v, c, rfl⟩ := hn
    rcases bridge_in_result cfg s w x v c with hd | ⟨e, hd⟩
    · obtain ⟨-, f, -, -, -, -, -, g1, g2, g3⟩ := C28_bridge_in cfg s w x v c hd
      have e1 : r.2 = .done := hd
      rw [e1]
      change r.1.toOther = s.toOther at g3
      rw [g3]
      simp only [outEvent, inEvent, decide_eq_true_eq]
      refine ⟨by omega, ?_⟩
      by_cases hc : c = chain
      · subst hc
        rw [if_pos rfl]
        exact g1
      · rw [if_neg hc]
        have := g2 chain (fun h => hc h.symm)
        change r.1.fromOther.get chain = _ at this
        rw [this]
        omega
    · have e1 : r.2 = .failed e := hd
      have e2 : r.1 = s := C28_failed_call_changes_nothing cfg s _ e hd
      rw [e1, e2]
      simp only [outEvent, inEvent]
      omega
  have ho' : ∀ w x v c, op ≠ .bridgeOut w x v c := fun w x v c h => ho ⟨w, x, v, c, h⟩
  have hn' : ∀ w x v c, op ≠ .bridgeIn w x v c := fun w x v c h => hn ⟨w, x, v, c, h⟩
  obtain ⟨f1, f2⟩ := books_frame cfg s op ho' hn'
  change r.1.toOther = _ at f1
  change r.1.fromOther = _ at f2
  rw [f1, f2]
  have z1 : outEvent (fun c => decide (c = chain)) (s, op, r.2) = 0 := by
    cases op with
    | bridgeOut w x v c => exact absurd rfl (ho' w x v c)
    | _ => rfl
  have z2 : inEvent (fun c => decide (c = chain)) (s, op, r.2) = 0 := by
    cases op with
    | bridgeIn w x v c => exact absurd rfl (hn' w x v c)
    | _ => rfl
  rw [z1, z2]
  omega

theorem books_run (cfg : Cfg) (chain : String) (ops : List Op) : ∀ s : State, (s.toOther.get chain).getD 0 ≤ 2 ^ 128 - 1 →
    (s.fromOther.get chain).getD 0 ≤ 2 ^ 128 - 1 →
    let r := run cfg s ops
    (r.1.toOther.get chain).getD 0 = min ((s.toOther.get chain).getD 0 + sentTo (fun c => decide (c = chain)) r.2) (2 ^ 128 - 1) ∧
    (r.1.fromOther.get chain).getD 0 = min ((s.fromOther.get chain).getD 0 + backFrom (fun c => decide (c = chain)) r.2) (2 ^ 128 - 1) := by
  induction ops with
  | nil =>
    intro s h1 h2
    simp only [run, sentTo, backFrom, List.map_nil, List.sum_nil]
    omega
  | cons op ops ih =>
    intro s h1 h2
    obtain ⟨a1, a2⟩ := books_step cfg s op chain h1 h2
    obtain ⟨b1, b2⟩ := ih (step cfg s op).1 (by omega) (by omega)
    simp only [run, sentTo, backFrom, List.map_cons, List.sum_cons] at b1 b2 ⊢
    rw [b1, b2, a1, a2]
    omega

/-- At any time the totals kept for a chain are the sums of all accepted transfers to it and from it, as long as these are below
2^128 - 1, and that number from then on. -/
theorem C149_books (cfg : Cfg) (bank : Bank) (daily single : Balance) (ops : List Op) (chain : String) :
    let r := run cfg (genesis bank daily single) ops
    (r.1.toOther.get chain).getD 0 = min (sentTo (fun c => decide (c = chain)) r.2) (2 ^ 128 - 1) ∧
    (r.1.fromOther.get chain).getD 0 = min (backFrom (fun c => decide (c = chain)) r.2) (2 ^ 128 - 1) := by
  intro r
  have h := books_run cfg chain ops (genesis bank daily single) (Nat.zero_le _) (Nat.zero_le _)
  have e1 : (((genesis bank daily single).toOther.get chain).getD 0 : Nat) = 0 := rfl
  have e2 : (((genesis bank daily single).fromOther.get chain).getD 0 : Nat) = 0 := rfl
  simp only [e1, e2, Nat.zero_add] at h
  exact h

/-- What is asked of one event: a bridge transfer names another account than the fund, and everything else leaves the free balance of
the fund and which account it is. -/
def Apart (cfg : Cfg) (f : AccId) : State × Op × Out → Prop
  | (_, .bridgeOut _ src _ _, _) => src ≠ f
  | (_, .bridgeIn _ dst _ _, _) => dst ≠ f
  | (s, op, _) => (step cfg s op).1.bank.free f = s.bank.free f ∧ (step cfg s op).1.fund = s.fund

theorem fund_step (cfg : Cfg) (s : State) (op : Op) (f : AccId) (hf : s.fund = some f) (ha : Apart cfg f (s, op, (step cfg s op).2)) :
    let r := step cfg s op
    r.1.fund = some f ∧
      r.1.bank.free f + inEvent (fun _ => true) (s, op, r.2) = s.bank.free f + outEvent (fun _ => true) (s, op, r.2) := by
  intro r
  by_cases ho : ∃ w x v c, op = .bridgeOut w x v c
  · obtain ⟨w, x, v, c, rfl⟩ := ho
    have hfund : r.1.fund = some f := by
      rw [← hf]
      refine Classical.byContradiction fun hc => ?_
      obtain ⟨_, _, h, _⟩ := C28_fund_pool cfg s _ hc
      cases h
    refine ⟨hfund, ?_⟩
    rcases bridge_out_result cfg s w x v c with hd | ⟨e, hd⟩
    · obtain ⟨-, f', h1, h2, -⟩ := C28_bridge_out cfg s w x v c hd
      rw [hf] at h1
      cases h1
      have := (h2 ha).2.1
      have e1 : r.2 = .done := hd
      rw [e1]
      exact this
    · have e1 : r.2 = .failed e := hd
      have e2 : r.1 = s := C28_failed_call_changes_nothing cfg s _ e hd
      rw [e1, e2]
      rfl
  by_cases hn : ∃ w x v c, op = .bridgeIn w x v c
  · obtain ⟨w, x, v, c, rfl⟩ := hn
    have hfund : r.1.fund = some f := by
      rw [← hf]
      refine Classical.byContradiction fun hc => ?_
      obtain ⟨_, _, h, _⟩ := C28_fund_pool cfg s _ hc
      cases h
    refine ⟨hfund, ?_⟩
    rcases bridge_in_result cfg s w x v c with hd | ⟨e, hd⟩
    · obtain ⟨-, f', h1, h2, -⟩ := C28_bridge_in cfg s w x v c hd
      rw [hf] at h1
      cases h1
      have := (h2 fun h => ha h.symm).1
      have e1 : r.2 = .done := hd
      rw [e1]
      exact this
    · have e1 : r.2 = .failed e := hd
      have e2 : r.1 = s := C28_failed_call_changes_nothing cfg s _ e hd
      rw [e1, e2]
      rfl
  have key : r.1.bank.free f = s.bank.free f ∧ r.1.fund = s.fund ∧ inEvent (fun _ => true) (s, op, r.2) = 0 ∧
      outEvent (fun _ => true) (s, op, r.2) = 0 := by
    cases op with
    | bridgeOut w x v c => exact absurd ⟨w, x, v, c, rfl⟩ ho
    | bridgeIn w x v c => exact absurd ⟨w, x, v, c, rfl⟩ hn
    | _ => exact ⟨ha.1, ha.2, rfl, rfl⟩
  obtain ⟨k1, k2, k3, k4⟩ := key
  exact ⟨k2.trans hf, by rw [k1, k3, k4]⟩

/-- The bridge fund holds what it held before, plus everything sent to other chains, minus everything brought back, provided no transfer
names the fund itself and nothing else touches it: nothing is paid out of the fund that is not booked and nothing is booked that did not
arrive. Missing from the full statement: transfers naming the fund itself, which are booked although nothing moves
(`C149_booked_not_moved`). -/
theorem C149_fund_partial (cfg : Cfg) (f : AccId) (ops : List Op) : ∀ s : State, s.fund = some f →
    (∀ e ∈ (run cfg s ops).2, Apart cfg f e) →
    let r := run cfg s ops
    r.1.bank.free f + backFrom (fun _ => true) r.2 = s.bank.free f + sentTo (fun _ => true) r.2 := by
  induction ops with
  | nil => intro s _ _; rfl
  | cons op ops ih =>
    intro s hf ha
    simp only [run] at ha
    obtain ⟨h1, h2⟩ := fund_step cfg s op f hf (ha _ List.mem_cons_self)
    have h3 := ih _ h1 fun e he => ha e (List.mem_cons_of_mem _ he)
    simp only [run, sentTo, backFrom, List.map_cons, List.sum_cons] at h3 ⊢
    omega

/-- Both on a history: 1 sends 300 and 50 to two chains, 100 come back; a transfer of more than 1 has fails and is not booked. -/
example : let s := (run exCfg (genesis exBank 100 80) [.external 0 exBank allPriv (fun _ => true), .setFund 7 2]).1
    let ops : List Op := [.bridgeOut 7 1 300 "bsc", .bridgeOut 7 1 50 "eth", .bridgeOut 7 1 5000 "bsc", .bridgeIn 7 1 100 "bsc"]
    s.fund = some 2 ∧ (∀ e ∈ (run exCfg s ops).2, Apart exCfg 2 e) ∧
      (sentTo (fun c => decide (c = "bsc")) (run exCfg s ops).2, backFrom (fun c => decide (c = "bsc")) (run exCfg s ops).2,
        sentTo (fun _ => true) (run exCfg s ops).2, s.bank.free 2, (run exCfg s ops).1.bank.free 2) = (300, 100, 350, 1000, 1250) := by
  intro s ops
  refine ⟨by decide +kernel, ?_, by decide +kernel⟩
  intro e he
  simp only [ops, run, List.mem_cons, List.not_mem_nil, or_false] at he
  rcases he with rfl | rfl | rfl | rfl
  · show 1 ≠ 2; decide
  · show 1 ≠ 2; decide
  · show 1 ≠ 2; decide
  · show 1 ≠ 2; decide

/-- Finding: a transfer that names the fund itself is booked although nothing moves, even one above all the
fund has, so that the books and the money part. -/
theorem C149_booked_not_moved : ∃ (s : State) (f who : AccId) (v : Balance), s.fund = some f ∧ s.bank.free f < v ∧
    (step exCfg s (.bridgeOut who f v "bsc")).2 = .done ∧
    (step exCfg s (.bridgeOut who f v "bsc")).1.bank.free f = s.bank.free f ∧
    ((step exCfg s (.bridgeOut who f v "bsc")).1.toOther.get "bsc").getD 0 = (s.toOther.get "bsc").getD 0 + v := by
  refine ⟨(run exCfg (genesis exBank 100 80) [.external 0 exBank allPriv (fun _ => true), .setFund 7 2]).1, 2, 7, 5000, ?_⟩
  decide +kernel

end Verif.Operation
