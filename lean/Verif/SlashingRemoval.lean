import Verif.SlashingLaw

/-
Properties C40, C68 and C97 for stashes that were removed and bonded again: what is left of earlier offences when a
stash is removed (pallets/staking/src/lib.rs:2953-2969, slashing.rs:482-505).
-/

namespace Verif.Slashing

open Verif

/-! ### Specification -/

/-- The slash entered because of one report about a stash. -/
def entryOf (cfg : Cfg) (a : AccId) : State × Op × Out → Option Offence
  | (_, .offence _ _ b f _, .reported e (some u)) =>
    if b = a then some ⟨e, perbill f (cfg.exposure e a).own, u.own, u.payout⟩ else none
  | _ => none

/-- The call removed the stash. -/
def removes (a : AccId) : State × Op × Out → Bool
  | (_, _, .ledger _ (some b)) => decide (b = a)
  | _ => false

/-- One more entry of the history: a removal starts a new list. -/
def since (cfg : Cfg) (a : AccId) (l : List Offence) (x : State × Op × Out) : List Offence :=
  match removes a x with
  | true => []
  | false => l ++ (entryOf cfg a x).toList

/-- The slashes entered for a stash since it was removed for the last time. -/
def slashesSince (cfg : Cfg) (a : AccId) (tr : List (State × Op × Out)) : List Offence := tr.foldl (since cfg a) []

/-! ### Proofs -/

theorem Good.drop {recs : FMap (AccId × Nat) Record} {a : AccId} {sp : Spans} {evs : List Offence} {e : Nat}
    (h : Good recs a sp (evs ++ [⟨e, 0, 0, 0⟩])) : Good recs a sp evs := by
  refine ⟨fun x hx l hl => ?_, fun o ho => h.before o (List.mem_append_left _ ho), h.fresh⟩
  have := h.closed x hx l hl
  rw [within_snoc] at this
  split at this
  · rw [total_snoc, worst_snoc, rewards_snoc] at this
    simpa using this
  · exact this

theorem Agree.drop {s : State} {a : AccId} {evs : List Offence} {e : Nat} (h : Agree s a (evs ++ [⟨e, 0, 0, 0⟩])) : Agree s a evs :=
  ⟨fun sp hsp => (h.1 sp hsp).drop, fun hn => absurd (h.2 hn).1 (by simp)⟩

theorem Agree.congr {s s' : State} {a : AccId} {evs : List Offence} (h : Agree s a evs)
    (h1 : s'.spans.get a = s.spans.get a) (h2 : ∀ i, s'.records.get (a, i) = s.records.get (a, i)) : Agree s' a evs := by
  refine ⟨fun sp hsp => ?_, fun hn => ?_⟩
  · rw [h1] at hsp
    have := h.1 sp hsp
    exact ⟨fun x hx l hl => by rw [h2]; exact this.closed x hx l hl, this.before, fun i hi => by rw [h2]; exact this.fresh i hi⟩
  · rw [h1] at hn
    obtain ⟨k1, k2⟩ := h.2 hn
    exact ⟨k1, fun i => by rw [h2]; exact k2 i⟩

/-- The slash entered by a report. -/
def entered (e : Nat) (v : Balance) : Option Unapplied → List Offence
  | none => []
  | some u => [⟨e, v, u.own, u.payout⟩]

theorem compute_agree {cfg : Cfg} {s : State} {a : AccId} {evs : List Offence} {f e w now : Nat} (h : Agree s a evs)
    (hs : SpOk s a w now) (hwe : w ≤ e) (hen : e ≤ now) :
    Agree (computeSlash cfg s a f e w now).1 a
      (evs ++ entered e (perbill f (cfg.exposure e a).own) (computeSlash cfg s a f e w now).2) := by
  unfold computeSlash
  simp only
  split
  · simp only [entered, List.append_nil]
    exact (kickOut_agree h hs hwe hen).drop
  split
  · simpa only [entered, List.append_nil] using h
  · obtain ⟨s1, hs1⟩ : ∃ s1, s1 = { s with eraSlash := s.eraSlash.insert e (((s.eraSlash.get e).getD ∅).insert a (f, perbill f (cfg.exposure e a).own)) } := ⟨_, rfl⟩
    rw [← hs1]
    have a1 : Agree s1 a evs := by rw [hs1]; exact h
    have a2 : SpOk s1 a w now := by rw [hs1]; exact hs
    obtain ⟨h1, h2, h3, h4⟩ := fetch_agree a1 w
    obtain ⟨_, g1, g2, g3⟩ := fetchSpans_spOk a2 (Nat.le_trans hwe hen)
    rw [← h2] at h1
    exact slashSpan_agree h1 h3 g1 g2 hwe hen

theorem step_agree {cfg : Cfg} {s : State} {a : AccId} {evs : List Offence} (ht : Times cfg s) (hk : KeptAll s a)
    (h : Agree s a evs) (op : Op) :
    Agree (step cfg s op).1 a (since cfg a evs (s, op, (step cfg s op).2)) := by
  cases op with
  | ledger op n =>
    simp only [step, ledgerCall]
    split
    · rename_i hb
      rw [hb]
      simp only [since, removes, entryOf, Option.toList_none, List.append_nil]
      exact h.congr rfl (fun _ => rfl)
    · rename_i b hb
      rw [hb]
      simp only [since, removes, entryOf, Option.toList_none, List.append_nil]
      generalize hs1 : ({ s with led := (Ledger.step cfg.led s.led (withSpans (spansOk s n (target s.led op)) op)).1 } : State) = s1
      by_cases hba : b = a
      · subst hba
        simp only [decide_true]
        have hk1 : KeptAll s1 b := by rw [← hs1]; exact hk.congr rfl (fun _ => rfl)
        obtain ⟨k1, k2⟩ := clear_all hk1 (fun sp hsp => (ht.spans b sp (by rw [← hs1] at hsp; exact hsp)).1)
        exact ⟨(fun sp hsp => by rw [k1] at hsp; cases hsp), fun _ => ⟨rfl, k2⟩⟩
      · simp only [hba, decide_false]
        obtain ⟨e1, e2, e3, e4, e5, e6, e7, e8⟩ := clearStash_fields s1 b
        have h1 : Agree s1 a evs := by rw [← hs1]; exact h.congr rfl (fun _ => rfl)
        exact h1.congr (e7 a fun h => hba h.symm) (fun i => e8 a i fun h => hba h.symm)
  | startEra session =>
    obtain ⟨applied, h1, hs⟩ := startEra_spec ht session
    simp only [step, h1, since, removes, entryOf, Option.toList_none, List.append_nil]
    exact h.congr (by rw [hs.spans]) (fun i => by rw [hs.records])
  | offence i j b f r =>
    have hc := onOffence_cases cfg s i j b f r
    simp only [step]
    generalize onOffence cfg s i j b f r = x at hc
    have hse : ∀ (n : Nat), Agree { s with earliest := some (s.earliest.getD n) } a evs := fun n => h.congr rfl (fun _ => rfl)
    have hspok : ∀ n, s.active = some n → SpOk s a (window cfg n) n := by
      intro n hn sp hsp
      obtain ⟨h1, m, h2, h3, h4⟩ := ht.spans a sp hsp
      rw [hn] at h2
      cases h2
      exact ⟨h1, h3, h4⟩
    cases hc with
    | ignored s' q h1 hq =>
      subst h1
      simp only [since, removes, entryOf, Option.toList_none, List.append_nil]
      exact h.congr rfl (fun _ => rfl)
    | quiet n e hn he hi hc =>
      obtain ⟨i', j', he⟩ := he
      have hb := eraOf_bounds ht hn he
      simp only [since, removes, entryOf, Option.toList_none, List.append_nil]
      by_cases hba : b = a
      · subst hba
        have := compute_agree (cfg := cfg) (f := f) (hse n) (hspok n hn) hb.1 hb.2
        rw [hc] at this
        simpa [entered] using this
      · have hf := computeSlash_frame cfg { s with earliest := some (s.earliest.getD n) } b f e (window cfg n) n
        exact h.congr (hf.spans a (fun h => hba h.symm)) (fun i => hf.records a i (fun h => hba h.symm))
    | slashed n e u hn he hi hc =>
      obtain ⟨i', j', he⟩ := he
      have hb := eraOf_bounds ht hn he
      obtain ⟨e1, e2, e3, e4, e5, e6, e7⟩ := enqueue_fields cfg
        (computeSlash cfg { s with earliest := some (s.earliest.getD n) } b f e (window cfg n) n).1 n { u with reporters := r }
      simp only [since, removes, entryOf]
      have key : Agree (computeSlash cfg { s with earliest := some (s.earliest.getD n) } b f e (window cfg n) n).1 a
          (evs ++ (if b = a then some (⟨e, perbill f (cfg.exposure e a).own, u.own, u.payout⟩ : Offence) else none).toList) := by
        by_cases hba : b = a
        · subst hba
          have := compute_agree (cfg := cfg) (f := f) (hse n) (hspok n hn) hb.1 hb.2
          rw [hc] at this
          simpa [entered] using this
        · have hf := computeSlash_frame cfg { s with earliest := some (s.earliest.getD n) } b f e (window cfg n) n
          rw [if_neg hba, Option.toList_none, List.append_nil]
          exact h.congr (hf.spans a (fun h => hba h.symm)) (fun i => hf.records a i (fun h => hba h.symm))
      exact key.congr (by rw [e3]) (fun i => by rw [e4])
  | cancel k e idx =>
    simp only [step]
    split
    · rename_i s' hc
      obtain ⟨_, _, _, _, rfl⟩ := cancel_ok hc
      simp only [since, removes, entryOf, Option.toList_none, List.append_nil]
      exact h.congr rfl (fun _ => rfl)
    · simp only [since, removes, entryOf, Option.toList_none, List.append_nil]
      exact h
  | setInvulnerables l =>
    simp only [step, since, removes, entryOf, Option.toList_none, List.append_nil]
    exact h.congr rfl (fun _ => rfl)
  | setRewardProp p =>
    simp only [step, since, removes, entryOf, Option.toList_none, List.append_nil]
    exact h.congr rfl (fun _ => rfl)

theorem run_agree (cfg : Cfg) (bank : Bank) (m : Balance) (ops : List Op) (a : AccId) :
    Agree (run cfg (genesis bank m) ops).1 a (slashesSince cfg a (run cfg (genesis bank m) ops).2) := by
  induction ops using List.reverseRecOn with
  | nil => exact ⟨(fun sp hsp => by simp [run, genesis] at hsp), (fun _ => ⟨rfl, fun i => by simp [run, genesis]⟩)⟩
  | append_singleton ops op ih =>
    have := step_agree (run_times cfg ops _ (genesis_times cfg bank m)) (run_kept cfg bank m ops a) ih op
    rw [run_snoc]
    simp only [slashesSince, List.foldl_append, List.foldl_cons, List.foldl_nil]
    exact this

/-- C40, for every history: of the slashes entered for a stash since it was removed for the last time (or ever, if it was
not), those for eras of one slashing span together are exactly the largest one among them. -/
theorem C40_since_removal (cfg : Cfg) (bank : Bank) (m : Balance) (ops : List Op) (a : AccId) (sp : Spans)
    (h : (run cfg (genesis bank m) ops).1.spans.get a = some sp) :
    ∀ x ∈ sp.iter, total (within x (slashesSince cfg a (run cfg (genesis bank m) ops).2)) =
      worst (within x (slashesSince cfg a (run cfg (genesis bank m) ops).2)) := by
  have ht := run_times cfg ops _ (genesis_times cfg bank m)
  have hgood := (run_agree cfg bank m ops a).1 sp h
  intro x hx
  rcases sp.iter_mem (ht.spans a sp h).1 hx with rfl | ⟨_, l, g1, _⟩
  · rw [within_empty (x := ⟨sp.index, sp.lastStart, none⟩) hgood.before]
    rfl
  · obtain ⟨c1, c2, -⟩ := hgood.closed x hx l g1
    rw [c1, c2]

/-- C97 (c), for every history: the amounts of the entry, where `before` are the slashes entered since the last removal of
the stash for offences in the same slashing span. -/
theorem C97_amounts_since (cfg : Cfg) (bank : Bank) (m : Balance) (ops : List Op) (s : State) (tr : List (State × Op × Out))
    (hr : run cfg (genesis bank m) ops = (s, tr)) (i j : Nat) (a : AccId) (f e : Nat) (rs : List AccId)
    (x : Unapplied) (hu : (step cfg s (.offence i j a f rs)).2 = .reported e (some x)) (before : List Offence)
    (hb : ∀ sp, s.spans.get a = some sp → ∃ y ∈ sp.iter, y.contains e = true ∧ before = within y (slashesSince cfg a tr))
    (hb0 : s.spans.get a = none → before = []) :
    x.own = perbill f (cfg.exposure e a).own - worst before ∧
    x.payout = if worst before ≤ perbill f (cfg.exposure e a).own
      then perbill 500000000 (perbill s.rewardProp (perbill f (cfg.exposure e a).own) - rewards before) else 0 := by
  have ha := run_agree cfg bank m ops a
  have ht := run_times cfg ops _ (genesis_times cfg bank m)
  rw [hr] at ha ht
  exact entry_amounts ht ha hu hb hb0

theorem compute_chills' {cfg : Cfg} {s : State} {a : AccId} {f e w now : Nat} (hwe : w ≤ e)
    (hlast : ∀ sp, s.spans.get a = some sp → sp.lastStart ≤ e)
    (hu : (computeSlash cfg s a f e w now).2 ≠ none ∨ perbill f (cfg.exposure e a).total = 0) :
    (computeSlash cfg s a f e w now).1.led.validators.get a = none := by
  unfold computeSlash at hu ⊢
  simp only at hu ⊢
  split
  · unfold kickOut
    simp only
    rw [ongoing_span (fetch_lastStart hwe hlast)]
    exact finish_chills rfl
  rename_i h0
  rw [if_neg h0] at hu
  split
  · rename_i hle
    rw [if_pos hle] at hu
    exact absurd hu (by simp [h0])
  · unfold slashSpan
    rw [ongoing_span (fetch_lastStart (s := { s with eraSlash := s.eraSlash.insert e (((s.eraSlash.get e).getD ∅).insert a (f, perbill f (cfg.exposure e a).own)) }) hwe hlast)]
    simp only
    refine finish_chills ?_
    split <;> rfl

/-- C68, for every history: a validator reported for an offence in an era of its ongoing span is no candidate any more right
after the report, unless a report of the same era with at least this fraction of the stake had been entered before. -/
theorem C68_worse_not_candidate (cfg : Cfg) (bank : Bank) (m : Balance) (ops : List Op) (a : AccId)
    (i j f e : Nat) (rs : List AccId) (u : Option Unapplied)
    (hout : (step cfg (run cfg (genesis bank m) ops).1 (.offence i j a f rs)).2 = .reported e u)
    (hlast : ∀ sp, (run cfg (genesis bank m) ops).1.spans.get a = some sp → sp.lastStart ≤ e)
    (hnew : ∀ g ∈ priorFractions a e (run cfg (genesis bank m) ops).2, g < f) :
    (step cfg (run cfg (genesis bank m) ops).1 (.offence i j a f rs)).1.led.validators.get a = none := by
  have ht := run_times cfg ops _ (genesis_times cfg bank m)
  have hen := (C97_entry cfg bank m ops _ _ rfl i j a f e rs u hout).1
  generalize (run cfg (genesis bank m) ops).1 = s at *
  simp only [step] at hout ⊢
  have hc := onOffence_cases cfg s i j a f rs
  generalize onOffence cfg s i j a f rs = x at hc hout
  have hu : u ≠ none ∨ perbill f (cfg.exposure e a).total = 0 := by
    by_cases h0 : perbill f (cfg.exposure e a).total = 0
    · exact Or.inr h0
    · exact Or.inl (hen.2 ⟨h0, hnew⟩)
  cases hc with
  | ignored s' q h1 hq => cases hout
  | quiet n e' hn he hi hc =>
    cases hout
    obtain ⟨i', j', he⟩ := he
    refine compute_chills' (s := { s with earliest := some (s.earliest.getD n) }) (eraOf_bounds ht hn he).1 hlast ?_
    rcases hu with hu | hu
    · exact absurd rfl hu
    · exact Or.inr hu
  | slashed n e' u' hn he hi hc =>
    cases hout
    obtain ⟨i', j', he⟩ := he
    have := compute_chills' (cfg := cfg) (s := { s with earliest := some (s.earliest.getD n) }) (f := f) (now := n)
      (eraOf_bounds ht hn he).1 hlast (Or.inl (by rw [hc]; simp))
    simp only
    unfold enqueue
    split
    · unfold applySlash
      simp only
      rw [doSlash_validators]
      exact this
    · exact this

/-- Removed and bonded again by validator 1 of `histCfg`, after a slash of 10% for era 1. -/
def exAgain : List Op :=
  [.ledger (.bond 1 2 500 .staked true) 0, .startEra 0, .startEra 6, .offence 6 7 1 100000000 [],
    .ledger (.forceUnstake true 1 true) 2, .ledger (.bond 1 3 500 .staked true) 0, .ledger (.validate 3 (0, false)) 0]

/-- C40, finding: what was slashed before a stash was removed is forgotten. A validator slashed 10% for era 1, removed and bonded
again, is slashed the whole 20% for the next report of that era, 30% altogether. -/
theorem C40_removed_pays_again :
    offences histCfg 1 (run histCfg (genesis histBank 10) (exAgain ++ [.offence 6 8 1 200000000 []])).2 =
      [⟨1, 50, 50, 0⟩, ⟨1, 100, 100, 0⟩] ∧
    slashesSince histCfg 1 (run histCfg (genesis histBank 10) (exAgain ++ [.offence 6 8 1 200000000 []])).2 =
      [⟨1, 100, 100, 0⟩] := by
  decide +kernel

/-- C68, finding: a validator which was slashed for era 1, removed and bonded again stays a candidate when another offence of
that era is reported which is not worse: the slash of the era is on record, the slashing spans are not. -/
theorem C68_removed_stays_candidate :
    let s := (run histCfg (genesis histBank 10) exAgain).1
    let r := step histCfg s (.offence 6 8 1 50000000 [])
    s.spans.get 1 = none ∧ (match r.2 with | .reported e u => some (e, u.isSome) | _ => none) = some (1, false) ∧
    r.1.led.validators.get 1 = some (0, false) := by
  decide +kernel

/-- The stash has spans again after the second report, and the slash fills a closed one. -/
example :
    let r := run histCfg (genesis histBank 10) (exAgain ++ [.offence 6 8 1 200000000 []])
    r.1.spans.get 1 = some ⟨1, 2, 1, [2]⟩ ∧ (⟨0, 0, some 2⟩ : Span) ∈ Spans.iter ⟨1, 2, 1, [2]⟩ ∧
    total (within ⟨0, 0, some 2⟩ (slashesSince histCfg 1 r.2)) = 100 ∧ r.1.led.validators.get 1 = none ∧
    priorFractions 1 1 (run histCfg (genesis histBank 10) exAgain).2 = [100000000] := by
  decide +kernel

/-- C138. The number of slashing spans is no obstacle: a withdrawal which names at least as many as there are for the stash (none
have to be named if it was never slashed) does what it does when they suffice, and the same holds for reaping. -/
theorem C138_spans (cfg : Cfg) (s : State) (a c : AccId) (l : Ledger.Ledger) (k : Bool) (n : Nat)
    (hn : ∀ sp, s.spans.get a = some sp → sp.prior.length + 1 ≤ n) :
    (s.led.ledgers.get c = some l → l.stash = a →
      (step cfg s (.ledger (.withdraw c k) n)).1.led = (Ledger.step cfg.led s.led (.withdraw c true)).1) ∧
    (step cfg s (.ledger (.reap a k) n)).1.led = (Ledger.step cfg.led s.led (.reap a true)).1 := by
  have hok : spansOk s n (some a) = true := by
    cases hs : s.spans.get a with
    | none => simp only [spansOk, hs]
    | some sp =>
      simp only [spansOk, hs, decide_eq_true_eq, Spans.iter, List.length_cons, iterFrom_length]
      exact hn sp hs
  have hled : ∀ op, (ledgerCall cfg s op n).1.led =
      (Ledger.step cfg.led s.led (withSpans (spansOk s n (target s.led op)) op)).1 := by
    intro op
    unfold ledgerCall
    dsimp only
    split
    · rfl
    · unfold clearStash
      split <;> rfl
  refine ⟨fun hl hst => ?_, ?_⟩
  · have ht : target s.led (.withdraw c k) = some a := by simp only [target, hl, Option.map_some, hst]
    show (ledgerCall cfg s _ n).1.led = _
    rw [hled, ht, hok]
    rfl
  · have ht : target s.led (.reap a k) = some a := rfl
    show (ledgerCall cfg s _ n).1.led = _
    rw [hled, ht, hok]
    rfl

/-- The validator of `exAgain` has two spans when it is slashed; with two the call that removes it succeeds, with one it fails. -/
example :
    let s := (run histCfg (genesis histBank 10) (exAgain.take 4)).1
    s.spans.get 1 = some ⟨1, 2, 1, [2]⟩ ∧
    (step histCfg s (.ledger (.forceUnstake true 1 true) 2)).1.led.bonded.get 1 = none ∧
    (step histCfg s (.ledger (.forceUnstake true 1 true) 1)).1.led.bonded.get 1 = some 2 := by
  decide +kernel

end Verif.Slashing
