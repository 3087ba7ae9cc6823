import Verif.DelegationProofs
import Verif.LedgerProperties

/-
C43 (records and sets of delegators agree), C44 (no era is paid twice), C45 (referral counts).
-/

namespace Verif.Delegation

open Verif

/-! ### C43 -/

/-- The set of delegators reported for a validator. -/
def delegatorsOf (s : State) (v : AccId) : List AccId :=
  match s.candidates.get v with
  | none => []
  | some c => c.delegators

theorem delegatorsOf_eq (s : State) (v : AccId) : delegatorsOf s v = members s.candidates v := by
  unfold delegatorsOf members
  cases s.candidates.get v <;> rfl

theorem sum_one (m : FMap AccId Delegator) : m.sum one = m.entries.length := by
  unfold FMap.sum one
  induction m.entries with
  | nil => rfl
  | cons x l ih => simp only [List.map_cons, List.sum_cons, List.length_cons, ih]; omega

theorem sum_active (m : FMap AccId Delegator) : m.sum oneActive = (m.entries.filter fun e => e.2.delegating).length := by
  unfold FMap.sum oneActive
  induction m.entries with
  | nil => rfl
  | cons x l ih =>
    simp only [List.map_cons, List.sum_cons, List.filter_cons, ih]
    split
    · simp; omega
    · simp

/-- C43: after every history an account is in the set of a validator, once, exactly if its own record is active
and names that validator; the two counters are the number of records and of active records. -/
theorem C43_graph (cfg : Cfg) (bank : Bank) (m : Balance) (ops : List Op) :
    let s := (run cfg (genesis bank m) ops).1
    (∀ a v, a ∈ delegatorsOf s v ↔ ∃ d, s.delegators.get a = some d ∧ d.delegating = true ∧ v ∈ d.validators) ∧
    (∀ v, (delegatorsOf s v).Nodup) ∧
    s.count = s.delegators.entries.length ∧
    s.active = (s.delegators.entries.filter fun e => e.2.delegating).length := by
  intro s
  have h : GInv s := run_inv (inv_step cfg) (inv_genesis bank m) ops
  refine ⟨fun a v => ?_, fun v => ?_, ?_, ?_⟩
  · rw [delegatorsOf_eq]; exact h.sym a v
  · rw [delegatorsOf_eq]; exact h.nodup v
  · rw [← sum_one]; exact h.count
  · rw [← sum_active]; exact h.active

/-- C43: a successful delegation leaves exactly the named validators with the delegator in their sets,
whatever it delegated to before. -/
theorem C43_delegate (cfg : Cfg) (bank : Bank) (m : Balance) (ops : List Op) (d : AccId) (vs : List AccId) (pass : Bool) :
    let s := (run cfg (genesis bank m) ops).1
    let r := step cfg s (.delegate d vs pass)
    (∃ e, r.2 = .failed e ∧ r.1 = s) ∨
    (r.2 = .done ∧ pass = true ∧ (∀ v ∈ vs, s.led.validators.contains v = true) ∧ s.led.validators.contains d = false ∧
      ∀ v, d ∈ delegatorsOf r.1 v ↔ v ∈ vs) := by
  intro s r
  have h : GInv s := run_inv (inv_step cfg) (inv_genesis bank m) ops
  have h' : GInv r.1 := inv_step cfg s _ h
  cases hb : delegate cfg s d vs pass with
  | error e =>
    left
    have : r = (s, .failed e) := by simp only [r, step, body, hb, Except.map]
    rw [this]; exact ⟨e, rfl, rfl⟩
  | ok t =>
    right
    have e : r = (t, .done) := by simp only [r, step, body, hb, Except.map]
    have hd := delegate_do hb
    have hrec : ∃ x : Delegator, t.delegators.get d = some x ∧ x.delegating = true ∧ x.validators = vs := by
      have hd := doDelegate_pass hd
      unfold doDelegate at hd
      simp only [Bool.true_eq_false, if_false] at hd
      cases ho : s.delegators.get d with
      | none => rw [ho] at hd; cases hd; exact ⟨_, FMap.get_insert_self _ _ _, rfl, rfl⟩
      | some x => rw [ho] at hd; cases hd; exact ⟨_, FMap.get_insert_self _ _ _, rfl, rfl⟩
    have hp : pass = true := by
      cases pass with
      | true => rfl
      | false => simp [doDelegate] at hd
    unfold delegate at hb
    split at hb; · cases hb
    split at hb; · cases hb
    rename_i hv
    split at hb; · cases hb
    split at hb; · cases hb
    split at hb; · cases hb
    rename_i ha
    rw [e] at h' ⊢
    refine ⟨rfl, hp, by simpa using ha, by simpa using hv, fun v => ?_⟩
    rw [delegatorsOf_eq, h'.sym d v]
    obtain ⟨x, h1, h2, h3⟩ := hrec
    constructor
    · rintro ⟨y, g1, _, g3⟩
      simp only at g1
      rw [h1] at g1; cases g1
      rw [← h3]; exact g3
    · intro hv
      exact ⟨x, h1, h2, by rw [h3]; exact hv⟩

/-- C43: after `undelegate` the account is in no set. -/
theorem C43_undelegate (cfg : Cfg) (bank : Bank) (m : Balance) (ops : List Op) (d : AccId) :
    let s := (run cfg (genesis bank m) ops).1
    ∀ v, d ∉ delegatorsOf (step cfg s (.undelegate d)).1 v := by
  intro s v
  have h : GInv s := run_inv (inv_step cfg) (inv_genesis bank m) ops
  have h' : GInv (step cfg s (.undelegate d)).1 := inv_step cfg s _ h
  rw [delegatorsOf_eq, h'.sym d v]
  rintro ⟨x, h1, h2, _⟩
  unfold step at h1
  simp only [body, undelegate] at h1
  split at h1
  · rename_i r hb
    split at hb
    · cases hb
    · cases hb
      simp only at h1
      unfold undelegateOf at h1
      cases ho : s.delegators.get d with
      | none => rw [ho] at h1; simp only at h1; rw [ho] at h1; cases h1
      | some y =>
        rw [ho] at h1
        simp only at h1
        split at h1
        · rename_i hy
          rw [ho] at h1; cases h1
          rw [hy] at h2; cases h2
        · split at h1
          · simp only [FMap.get_erase_self] at h1; cases h1
          · simp only [FMap.get_insert_self] at h1; cases h1; cases h2
  · rename_i e hb
    split at hb
    · rename_i hc
      simp only at h1
      rw [(FMap.contains_iff _ _).mpr ⟨x, h1⟩] at hc
      cases hc
    · cases hb

/-- Two validators (1 and 2) that have bonded. -/
def exCfg : Cfg := ⟨Ledger.exCfg, 2, 4, 1000, id⟩

def exBank : Bank := 
  { ed := 1, accts := ((∅ : FMap AccId Acct).insert 1 ⟨1000, 0⟩).insert 2 ⟨1000, 0⟩, frozen := fun _ => 0, pinned := fun _ => true, issuance := 2000 }

def exStart : List Op :=
  [.ledger (.bond 1 11 500 .stash true), .ledger (.validate 11 (0, false)), .ledger (.bond 2 12 500 .stash true),
   .ledger (.validate 12 (0, false)), .configure 100 1 1 [] 84, .newEra [1, 2], .newEra [1, 2]]

def exReward : AccId → Nat → Nat → Option Balance := fun a e f => some (a * (f + 1 - e))

/-- Delegators 7, 8 and 9: 7 leaves and is kept for its reward, 8 changes to other validators, 9 leaves at once. -/
def exDelegate : List Op :=
  exStart ++ [.delegate 7 [1] true, .delegate 8 [1] true, .delegate 9 [2] true, .undelegate 7, .delegate 8 [2, 1] true] ++
  List.replicate 4 (.block exReward) ++ [.delegate 10 [2] true, .undelegate 10]

example :
    let s := (run exCfg (genesis exBank 10) exDelegate).1
    delegatorsOf s 1 = [8] ∧ delegatorsOf s 2 = [8, 9] ∧ s.count = 3 ∧ s.active = 2 ∧
    s.delegators.get 7 = some ⟨7, [1], some 0, false⟩ ∧ s.delegators.get 10 = none ∧
    s.delegators.get 8 = some ⟨8, [2, 1], some 0, true⟩ := by
  decide +kernel

/-! ### C44 -/

/-- C44: in no history is an era paid twice to the same account, and every payment covers past eras only. -/
theorem C44_once (cfg : Cfg) (bank : Bank) (m : Balance) (ops : List Op) (a : AccId) (e : Nat) :
    let r := run cfg (genesis bank m) ops
    ((paymentsOf r.2).filter fun p => decide (p.who = a ∧ p.first ≤ e ∧ e ≤ p.last)).length ≤ 1 ∧
    ∀ p ∈ paymentsOf r.2, p.first ≤ p.last ∧ p.last < creditEra cfg r.1 := by
  intro r
  have h := marks_run cfg (marks_genesis cfg bank m) ops
  simp only [List.nil_append] at h
  refine ⟨?_, h.past⟩
  have ho : ((paymentsOf r.2).filter fun p => decide (p.who = a ∧ p.first ≤ e ∧ e ≤ p.last)).Pairwise
      fun p q => p.who = q.who → p.last < q.first := h.order.filter _
  have hm : ∀ p ∈ (paymentsOf r.2).filter fun p => decide (p.who = a ∧ p.first ≤ e ∧ e ≤ p.last),
      p.who = a ∧ p.first ≤ e ∧ e ≤ p.last := by
    intro p hp
    have := (List.mem_filter.mp hp).2
    simpa using this
  match hl : (paymentsOf r.2).filter fun p => decide (p.who = a ∧ p.first ≤ e ∧ e ≤ p.last) with
  | [] => rw [hl]; simp
  | [_] => rw [hl]; simp
  | p :: q :: l =>
    exfalso
    rw [hl] at ho hm
    have h1 := hm p (by simp)
    have h2 := hm q (by simp)
    have h3 := (List.pairwise_cons.mp ho).1 q (by simp) (h1.1.trans h2.1.symm)
    omega

/-- C44: the marker of the first unpaid era never moves backwards, even if the record is removed and added again
in between. -/
theorem C44_marker (cfg : Cfg) (bank : Bank) (m : Balance) (ops ops' : List Op) (a : AccId) (d d' : Delegator) :
    let s := (run cfg (genesis bank m) ops).1
    let s' := (run cfg s ops').1
    s.delegators.get a = some d → s'.delegators.get a = some d' →
    ∃ x y, d.since = some x ∧ d'.since = some y ∧ x ≤ y ∧ x ≤ creditEra cfg s := by
  intro s s' hd hd'
  have h := marks_run cfg (marks_genesis cfg bank m) ops
  simp only [List.nil_append] at h
  obtain ⟨x, h1, h2, _⟩ := h.mark a d hd
  obtain ⟨y, h3, _⟩ := (marks_run cfg h ops').mark a d' hd'
  exact ⟨x, y, h1, h3, mark_mono cfg h ops' hd h1 hd' h3, h2⟩

/-- C44: a payment begins with the marker of the account's record and moves it behind the last paid era, or
removes the record. -/
theorem payment_contiguous (cfg : Cfg) (s : State) (r : AccId → Nat → Nat → Option Balance)
    (hw : ∀ a d, s.delegators.get a = some d → d.who = a ∧ ∃ n, d.since = some n ∧ n ≤ creditEra cfg s) :
    ∀ p ∈ (onBlock cfg s r).2, p.last + 1 = creditEra cfg (onBlock cfg s r).1 ∧ p.amount = r p.who p.first p.last ∧
      (∃ d, s.delegators.get p.who = some d ∧ d.since = some p.first) ∧
      ∀ d, (onBlock cfg s r).1.delegators.get p.who = some d → d.since = some (p.last + 1) := by
  unfold onBlock
  simp only
  split
  · intro p hp; cases hp
  split
  · intro p hp; cases hp
  intro p hp
  have hE : creditEra cfg s ≤ creditEra cfg { s with block := s.block + 1 } := Nat.div_le_div_right (Nat.le_succ _)
  generalize hs1 : ({ s with block := s.block + 1 } : State) = s1 at hp hE ⊢
  have hD : s1.delegators = s.delegators := by rw [← hs1]
  have key : (payDelegators cfg s1 r).1.block = s1.block ∧
      (∀ a d, (payDelegators cfg s1 r).1.delegators.get a = some d → d.who = a ∧
        ((∃ d0, s.delegators.get a = some d0 ∧ d0.since = d.since ∧ ∃ n, d.since = some n ∧ n ≤ creditEra cfg s1) ∧
          (∀ p ∈ (payDelegators cfg s1 r).2, p.who = a → d.since = some (creditEra cfg s1)) ∨
          d.since = some (creditEra cfg s1))) ∧
      ∀ p ∈ (payDelegators cfg s1 r).2, p.last + 1 = creditEra cfg s1 ∧ p.amount = r p.who p.first p.last ∧
        ∃ d, s.delegators.get p.who = some d ∧ d.since = some p.first := by
    refine payDelegators_inv (P := fun t l => t.block = s1.block ∧
      (∀ a d, t.delegators.get a = some d → d.who = a ∧
        ((∃ d0, s.delegators.get a = some d0 ∧ d0.since = d.since ∧ ∃ n, d.since = some n ∧ n ≤ creditEra cfg s1) ∧
          (∀ p ∈ l, p.who = a → d.since = some (creditEra cfg s1)) ∨
          d.since = some (creditEra cfg s1))) ∧
      ∀ p ∈ l, p.last + 1 = creditEra cfg s1 ∧ p.amount = r p.who p.first p.last ∧
        ∃ d, s.delegators.get p.who = some d ∧ d.since = some p.first) ?_ ?_ ?_ ?_
    · intro u t l hg hi
      obtain ⟨g1, _, _, _, g5⟩ := graph_eq hg
      rw [g1, g5]; exact hi
    · intro u d l hd hi hn
      obtain ⟨hi1, hi2, hi3⟩ := hi
      obtain ⟨_, hd2⟩ := hi2 _ d hd
      have hd3 : (∃ d0, s.delegators.get d.who = some d0 ∧ d0.since = d.since ∧ ∃ n, d.since = some n ∧ n ≤ creditEra cfg s1) := by
        rcases hd2 with h | h
        · exact h.1
        · rw [h] at hn; exact absurd rfl hn
      obtain ⟨d0, k1, k2, n, k3, k4⟩ := hd3
      rw [k3] at hn ⊢
      simp only [Option.getD_some] at hn ⊢
      have hlt : n < creditEra cfg s1 := by omega
      have hrest : ∀ a x, a ≠ d.who → u.delegators.get a = some x → x.who = a ∧
          ((∃ d0, s.delegators.get a = some d0 ∧ d0.since = x.since ∧ ∃ n, x.since = some n ∧ n ≤ creditEra cfg s1) ∧
            (∀ p ∈ l ++ [(⟨d.who, n, creditEra cfg s1 - 1, r d.who n (creditEra cfg s1 - 1)⟩ : Payment)], p.who = a →
              x.since = some (creditEra cfg s1)) ∨ x.since = some (creditEra cfg s1)) := by
        intro a x ha hx
        refine ⟨(hi2 a x hx).1, ?_⟩
        rcases (hi2 a x hx).2 with ⟨h1, h2⟩ | h
        · refine .inl ⟨h1, fun p hp hpa => ?_⟩
          rcases List.mem_append.mp hp with hp | hp
          · exact h2 p hp hpa
          · simp only [List.mem_singleton] at hp
            subst hp
            exact absurd hpa.symm ha
        · exact .inr h
      refine ⟨by rw [settle_block]; exact hi1, ?_, ?_⟩
      · unfold settle
        split
        · simp only [hd, Option.getD_some]
          intro a x hx
          rw [FMap.get_insert] at hx
          split at hx
          · rename_i e; cases hx; exact ⟨e.symm, .inr rfl⟩
          · rename_i ha; exact hrest a x ha hx
        · intro a x hx
          simp only [FMap.get_erase] at hx
          split at hx
          · cases hx
          · rename_i ha; exact hrest a x ha hx
      · intro p hp
        rcases List.mem_append.mp hp with hp | hp
        · exact hi3 p hp
        · simp only [List.mem_singleton] at hp
          subst hp
          refine ⟨by simp only; omega, rfl, d0, k1, ?_⟩
          rw [k2, k3]
    · intro u l a d hi hd
      exact (hi.2.1 a d hd).1
    · refine ⟨rfl, fun a d hd => ?_, fun p hp => by cases hp⟩
      rw [hD] at hd
      obtain ⟨h1, n, h2, h3⟩ := hw a d hd
      exact ⟨h1, .inl ⟨⟨d, hd, rfl, n, h2, by omega⟩, fun p hp => by cases hp⟩⟩
  obtain ⟨k1, k2, k3⟩ := key
  have he : creditEra cfg (payDelegators cfg s1 r).1 = creditEra cfg s1 := by unfold creditEra; rw [k1]
  obtain ⟨j1, j2, j3⟩ := k3 p hp
  refine ⟨by rw [he]; exact j1, j2, j3, fun d hd => ?_⟩
  rw [j1]
  rcases (k2 _ d hd).2 with ⟨_, h⟩ | h
  · exact h p hp rfl
  · exact h

/-- C44: after every history, a payment in the next block begins with the first unpaid era of the account, ends
with the era before the present one, and moves the marker to the present era unless the record is removed: no era
is left out. -/
theorem C44_contiguous (cfg : Cfg) (bank : Bank) (m : Balance) (ops : List Op) (r : AccId → Nat → Nat → Option Balance) :
    let s := (run cfg (genesis bank m) ops).1
    let s' := (step cfg s (.block r)).1
    ∃ l, (step cfg s (.block r)).2 = .paid l ∧
    ∀ p ∈ l, p.last + 1 = creditEra cfg s' ∧ p.amount = r p.who p.first p.last ∧
      (∃ d, s.delegators.get p.who = some d ∧ d.since = some p.first) ∧
      ∀ d, s'.delegators.get p.who = some d → d.since = some (p.last + 1) := by
  intro s s'
  have h := marks_run cfg (marks_genesis cfg bank m) ops
  exact ⟨_, rfl, payment_contiguous cfg s r fun a d hd => ⟨h.who a d hd, by
    obtain ⟨n, h1, h2, _⟩ := h.mark a d hd
    exact ⟨n, h1, h2⟩⟩⟩

/-- Payouts of the example: the idle record of 7 is paid and removed, 8 is paid twice. -/
example :
    let r := run exCfg (genesis exBank 10) (exDelegate ++ List.replicate 5 (.block exReward))
    paymentsOf r.2 = [⟨7, 0, 0, some 7⟩, ⟨8, 0, 0, some 8⟩, ⟨9, 0, 0, some 9⟩, ⟨8, 1, 1, some 8⟩, ⟨9, 1, 1, some 9⟩] ∧
    r.1.count = 2 ∧ r.1.delegators.get 8 = some ⟨8, [2, 1], some 2, true⟩ := by
  decide +kernel

/-! ### C45 -/

theorem sum_names (m : FMap AccId AccId) (r : AccId) : m.sum (names r) = (m.entries.filter fun e => decide (e.2 = r)).length := by
  unfold FMap.sum names
  induction m.entries with
  | nil => rfl
  | cons x l ih =>
    simp only [List.map_cons, List.sum_cons, List.filter_cons, ih, decide_eq_true_eq]
    split
    · simp; omega
    · simp

/-- C45: after every history the referee count of an account is the number of accounts that name it as referrer,
and nobody names themselves. -/
theorem C45_counts (cfg : Cfg) (bank : Bank) (m : Balance) (ops : List Op) :
    let s := (run cfg (genesis bank m) ops).1
    (∀ r, (s.refereeCount.get r).getD 0 = (s.referer.entries.filter fun e => decide (e.2 = r)).length) ∧
    ∀ a, s.referer.get a ≠ some a := by
  intro s
  have h : RInv s := run_inv (rinv_step cfg) (s := genesis bank m) ⟨fun r => rfl, fun a h => by cases h⟩ ops
  refine ⟨fun r => ?_, h.self⟩
  rw [← sum_names]; exact h.count r

/-- C45: only an administrator changes referrals, and a call changes nobody else's. -/
theorem C45_calls (cfg : Cfg) (s : State) (op : Op) (a : AccId) :
    (step cfg s op).1.referer.get a = s.referer.get a ∨
    (∃ r, op = .setReferer true a r ∧ r ≠ a ∧ (step cfg s op).1.referer.get a = some r) ∨
    (op = .unsetReferer true a ∧ (step cfg s op).1.referer.get a = none) := by
  rcases refs_step cfg s op with h | ⟨k, b, r, rfl, h⟩ | ⟨k, b, rfl, h⟩
  · simp only [refs, Prod.mk.injEq] at h
    rw [h.1]; exact .inl rfl
  · unfold setReferer at h
    split at h; · cases h
    split at h; · cases h
    rename_i hk hbr
    have hk : k = true := by simpa using hk
    rw [← Except.ok.inj h]
    simp only [FMap.get_insert, hk]
    split
    · rename_i h; subst h; exact .inr (.inl ⟨r, rfl, fun h => hbr h.symm, rfl⟩)
    · exact .inl rfl
  · unfold unsetReferer at h
    split at h; · cases h
    rename_i hk
    have hk : k = true := by simpa using hk
    rw [← Except.ok.inj h]
    simp only [FMap.get_erase, hk]
    split
    · rename_i h; subst h; exact .inr (.inr ⟨rfl, rfl⟩)
    · exact .inl rfl

example :
    let s := (run exCfg (genesis exBank 10) [.setReferer true 5 6, .setReferer true 7 6, .setReferer true 8 9,
      .setReferer true 7 9, .unsetReferer true 5, .unsetReferer true 3, .setReferer true 6 6, .setReferer false 1 6,
      .setReferer true 8 9]).1
    (s.refereeCount.get 6, s.refereeCount.get 9) = (some 0, some 2) ∧ s.referer.get 8 = some 9 ∧ s.referer.get 6 = none := by
  decide +kernel

end Verif.Delegation
