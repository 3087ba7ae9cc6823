import Verif.SlashingProofs
import Mathlib.Data.List.Perm.Basic

/-
Property C40: within a slashing span only the worst offence counts.
-/

namespace Verif.Slashing

open Verif

/-! ### Specification -/

/-- An accepted report about a stash: the era of the offence, the slash it calls for by itself, what was
slashed because of it, and the reward set aside for the reporters. -/
structure Offence where
  era : Nat
  value : Balance
  slashed : Balance
  paid : Balance
deriving DecidableEq, Repr

/-- The accepted report of one entry of a history. -/
def offenceOf (cfg : Cfg) (a : AccId) : State × Op × Out → Option Offence
  | (_, .offence _ _ b f _, .reported e u) =>
    if b = a then some ⟨e, perbill f (cfg.exposure e a).own, (u.map Unapplied.own).getD 0, (u.map Unapplied.payout).getD 0⟩
    else none
  | _ => none

/-- All accepted reports about a stash. -/
def offences (cfg : Cfg) (a : AccId) (tr : List (State × Op × Out)) : List Offence := tr.filterMap (offenceOf cfg a)

/-- The reports of offences of eras of a span. -/
def within (x : Span) (l : List Offence) : List Offence := l.filter fun o => x.contains o.era

/-- Everything slashed because of the reports. -/
def total (l : List Offence) : Balance := (l.map Offence.slashed).sum

/-- All rewards for the reports. -/
def rewards (l : List Offence) : Balance := (l.map Offence.paid).sum

/-- The largest single slash. -/
def worst (l : List Offence) : Balance := (l.map Offence.value).foldl max 0

/-- The stash was not removed. -/
def NotKilled (a : AccId) (tr : List (State × Op × Out)) : Prop := ∀ x ∈ tr, ∀ o, x.2.2 ≠ .ledger o (some a)

/-! ### Reports one by one -/

theorem total_snoc (l : List Offence) (o : Offence) : total (l ++ [o]) = total l + o.slashed := by
  simp [total]

theorem rewards_snoc (l : List Offence) (o : Offence) : rewards (l ++ [o]) = rewards l + o.paid := by
  simp [rewards]

theorem worst_snoc (l : List Offence) (o : Offence) : worst (l ++ [o]) = max (worst l) o.value := by
  simp [worst]

theorem foldl_max_ge (l : List Nat) : ∀ (n : Nat), n ≤ l.foldl max n ∧ ∀ x ∈ l, x ≤ l.foldl max n := by
  induction l with
  | nil => intro n; exact ⟨Nat.le_refl _, (fun x h => by cases h)⟩
  | cons y l ih =>
    intro n
    obtain ⟨h1, h2⟩ := ih (max n y)
    rw [List.foldl_cons]
    refine ⟨by omega, fun x hx => ?_⟩
    rcases List.mem_cons.1 hx with rfl | hx
    · omega
    · exact h2 x hx

theorem worst_ge {l : List Offence} {o : Offence} (h : o ∈ l) : o.value ≤ worst l :=
  (foldl_max_ge _ 0).2 _ (List.mem_map_of_mem h)

theorem within_snoc (x : Span) (l : List Offence) (o : Offence) :
    within x (l ++ [o]) = if x.contains o.era = true then within x l ++ [o] else within x l := by
  unfold within
  rw [List.filter_append]
  by_cases h : x.contains o.era = true
  · simp [h]
  · simp [h]

theorem within_empty {x : Span} {l : List Offence} (h : ∀ o ∈ l, o.era < x.start) : within x l = [] := by
  unfold within
  rw [List.filter_eq_nil_iff]
  intro o ho
  rw [Span.contains_iff]
  intro hc
  have := h o ho
  omega

theorem mem_within {x : Span} {l : List Offence} {o : Offence} : o ∈ within x l ↔ o ∈ l ∧ x.contains o.era = true :=
  List.mem_filter

/-- Records and reports of one stash agree. -/
structure Good (recs : FMap (AccId × Nat) Record) (a : AccId) (sp : Spans) (evs : List Offence) : Prop where
  closed : ∀ x ∈ sp.iter, ∀ l, x.length = some l →
    total (within x evs) = ((recs.get (a, x.index)).getD ⟨0, 0⟩).slashed ∧
    worst (within x evs) = ((recs.get (a, x.index)).getD ⟨0, 0⟩).slashed ∧
    rewards (within x evs) = ((recs.get (a, x.index)).getD ⟨0, 0⟩).paidOut
  before : ∀ o ∈ evs, o.era < sp.lastStart
  fresh : ∀ i, sp.index ≤ i → recs.get (a, i) = none

theorem Good.new (recs : FMap (AccId × Nat) Record) (a : AccId) (w : Nat) (h : ∀ i, recs.get (a, i) = none) :
    Good recs a (Spans.new w) [] := by
  refine ⟨?_, (fun o h => by cases h), fun i _ => h i⟩
  intro x hx l hl
  simp only [Spans.new, Spans.iter, iterFrom, List.mem_singleton] at hx
  subst hx
  cases hl

theorem endSpan_eq {sp : Spans} {now : Nat} (h : sp.lastStart ≤ now) :
    sp.endSpan now = ({ sp with prior := (now + 1 - sp.lastStart) :: sp.prior, lastStart := now + 1, index := sp.index + 1 }, true) := by
  unfold Spans.endSpan
  rw [if_neg (by omega)]

theorem endSpan_iter {sp : Spans} {now : Nat} (h : sp.lastStart ≤ now) :
    (sp.endSpan now).1.iter = ⟨sp.index + 1, now + 1, none⟩ :: ⟨sp.index, sp.lastStart, some (now + 1 - sp.lastStart)⟩ ::
      iterFrom sp.lastStart sp.index sp.prior := by
  rw [endSpan_eq h]
  simp only [Spans.iter, iterFrom]
  rw [show now + 1 - (now + 1 - sp.lastStart) = sp.lastStart by omega]
  rfl

/-- An offence in the ongoing span closes it. -/
theorem Good.close {recs recs' : FMap (AccId × Nat) Record} {a : AccId} {sp : Spans} {evs : List Offence}
    (h : Good recs a sp evs) (hok : sp.Ok) {o : Offence} {now : Nat} (h1 : sp.lastStart ≤ o.era) (h2 : o.era ≤ now)
    (hv : o.slashed = o.value) (hr : ((recs'.get (a, sp.index)).getD ⟨0, 0⟩).slashed = o.value)
    (hpd : ((recs'.get (a, sp.index)).getD ⟨0, 0⟩).paidOut = o.paid)
    (hne : ∀ i, i ≠ sp.index → recs'.get (a, i) = recs.get (a, i)) :
    Good recs' a (sp.endSpan now).1 (evs ++ [o]) := by
  refine ⟨?_, ?_, ?_⟩
  · intro x hx l hl
    rw [endSpan_iter (by omega)] at hx
    rcases List.mem_cons.1 hx with rfl | hx
    · cases hl
    rcases List.mem_cons.1 hx with rfl | hx
    · rw [within_snoc, within_empty (x := ⟨sp.index, sp.lastStart, some (now + 1 - sp.lastStart)⟩) h.before]
      rw [if_pos (by rw [Span.contains_iff]; refine ⟨h1, fun l hl => ?_⟩; cases hl; simp only; omega)]
      rw [total_snoc, worst_snoc, rewards_snoc, hr, hpd, hv]
      simp [total, worst, rewards]
    · have hx' : x ∈ sp.iter := List.mem_cons_of_mem _ hx
      rcases sp.iter_mem hok hx' with rfl | ⟨_, l', g1, g2, g3, g4, g5, g6⟩
      · cases hl
      · rw [within_snoc, if_neg, hne _ (by omega)]
        · exact h.closed x hx' l hl
        · rw [Span.contains_iff]
          intro hc
          have := hc.2 l' g1
          omega
  · intro o' ho'
    rw [endSpan_eq (by omega)]
    rcases List.mem_append.1 ho' with ho' | ho'
    · have := h.before o' ho'
      simp only
      omega
    · rw [List.mem_singleton] at ho'
      subst ho'
      simp only
      omega
  · intro i hi
    rw [endSpan_eq (by omega)] at hi
    simp only at hi
    rw [hne i (by omega)]
    exact h.fresh i (by omega)

/-- An offence in a closed span raises its record. -/
theorem Good.raise {recs recs' : FMap (AccId × Nat) Record} {a : AccId} {sp : Spans} {evs : List Offence}
    (h : Good recs a sp evs) (hok : sp.Ok) {o : Offence} {x : Span} {l : Nat} (hx : x ∈ sp.iter) (hl : x.length = some l)
    (hc : x.contains o.era = true)
    (hv : o.slashed = o.value - ((recs.get (a, x.index)).getD ⟨0, 0⟩).slashed)
    (hr : ((recs'.get (a, x.index)).getD ⟨0, 0⟩).slashed = max ((recs.get (a, x.index)).getD ⟨0, 0⟩).slashed o.value)
    (hpd : ((recs'.get (a, x.index)).getD ⟨0, 0⟩).paidOut = ((recs.get (a, x.index)).getD ⟨0, 0⟩).paidOut + o.paid)
    (hne : ∀ i, i ≠ x.index → recs'.get (a, i) = recs.get (a, i)) :
    Good recs' a sp (evs ++ [o]) := by
  have hxb : x.index < sp.index ∧ x.start + l ≤ sp.lastStart := by
    rcases sp.iter_mem hok hx with rfl | ⟨_, l', g1, g2, g3, g4, g5, g6⟩
    · cases hl
    · rw [hl] at g1; cases g1; exact ⟨g5, g3⟩
  refine ⟨?_, ?_, ?_⟩
  · intro y hy l' hl'
    by_cases hxy : y = x
    · subst hxy
      obtain ⟨c1, c2, c3⟩ := h.closed y hy l' hl'
      rw [within_snoc, if_pos hc, total_snoc, worst_snoc, rewards_snoc, c1, c2, c3, hr, hv, hpd]
      omega
    · rw [within_snoc, if_neg, hne]
      · exact h.closed y hy l' hl'
      · intro hi
        exact hxy (sp.iter_unique hok hy hx (Or.inr hi))
      · intro hcy
        exact hxy (sp.iter_unique hok hy hx (Or.inl ⟨_, hcy, hc⟩))
  · intro o' ho'
    rcases List.mem_append.1 ho' with ho' | ho'
    · exact h.before o' ho'
    · rw [List.mem_singleton] at ho'
      subst ho'
      have := ((Span.contains_iff x _).1 hc).2 l hl
      omega
  · intro i hi
    rw [hne i (by omega)]
    exact h.fresh i hi

/-- A report that is not worse than an earlier one of the same era. -/
theorem Good.repeat {recs : FMap (AccId × Nat) Record} {a : AccId} {sp : Spans} {evs : List Offence}
    (h : Good recs a sp evs) {o o' : Offence} (ho : o' ∈ evs) (he : o'.era = o.era) (hv : o.value ≤ o'.value)
    (hs : o.slashed = 0) (hpd : o.paid = 0) : Good recs a sp (evs ++ [o]) := by
  refine ⟨?_, ?_, h.fresh⟩
  · intro x hx l hl
    obtain ⟨c1, c2, c3⟩ := h.closed x hx l hl
    rw [within_snoc]
    split
    · rename_i hc
      have := worst_ge (mem_within.2 ⟨ho, by rw [he]; exact hc⟩)
      rw [total_snoc, worst_snoc, rewards_snoc, hs, hpd]
      omega
    · exact ⟨c1, c2, c3⟩
  · intro o1 ho1
    rcases List.mem_append.1 ho1 with ho1 | ho1
    · exact h.before o1 ho1
    · rw [List.mem_singleton] at ho1
      subst ho1
      rw [← he]
      exact h.before o' ho

/-- Pruning. -/
theorem Good.prune {recs recs' : FMap (AccId × Nat) Record} {a : AccId} {sp : Spans} {evs : List Offence}
    (h : Good recs a sp evs) (hok : sp.Ok) (w : Nat)
    (hr : ∀ i, recs'.get (a, i) = match (sp.prune w).2 with
      | some (b, c) => if b ≤ i ∧ i < c then none else recs.get (a, i)
      | none => recs.get (a, i)) :
    Good recs' a (sp.prune w).1 evs := by
  have hp := prune_spec hok w
  obtain ⟨k, k1, k2, k3, k4, k5, k6, k7⟩ := prune_prior sp w
  have hlen := hok.len
  refine ⟨?_, ?_, ?_⟩
  · intro x hx l hl
    have hx' := ((hp.keep x l hl).1 hx).1
    have hlow : sp.index - k ≤ x.index := by
      rcases (sp.prune w).1.iter_mem hp.ok hx with rfl | ⟨_, l, g1, g2, g3, g4, g5, g6⟩
      · cases hl
      · rw [hp.index, k2, List.length_take] at g6; omega
    have : recs'.get (a, x.index) = recs.get (a, x.index) := by
      rw [hr]
      rcases k5 with ⟨k5, _⟩ | k5
      · rw [k5]
      · rw [k5]; simp only; rw [if_neg (by omega)]
    rw [this]
    exact h.closed x hx' l hl
  · intro o ho
    have := h.before o ho
    rw [hp.lastStart]
    omega
  · intro i hi
    rw [hp.index] at hi
    have := h.fresh i hi
    rw [hr]
    split
    · split
      · rfl
      · exact this
    · exact this

/-! ### Parts of `compute_slash` -/

/-- Spans, records and reports of a stash agree. -/
def Agree (s : State) (a : AccId) (evs : List Offence) : Prop :=
  (∀ sp, s.spans.get a = some sp → Good s.records a sp evs) ∧
  (s.spans.get a = none → evs = [] ∧ ∀ i, s.records.get (a, i) = none)

theorem fetch_agree {s : State} {a : AccId} {evs : List Offence} (h : Agree s a evs) (w : Nat) :
    Good s.records a (fetchSpans s a w).2 evs ∧ (fetchSpans s a w).1.records = s.records ∧
    (fetchSpans s a w).1.spans.get a = some (fetchSpans s a w).2 ∧ (fetchSpans s a w).1.eraSlash = s.eraSlash := by
  unfold fetchSpans
  cases hg : s.spans.get a with
  | some sp => exact ⟨h.1 sp hg, rfl, hg, rfl⟩
  | none =>
    obtain ⟨rfl, h2⟩ := h.2 hg
    exact ⟨Good.new _ _ _ h2, rfl, FMap.get_insert_self _ _ _, rfl⟩

theorem drop_agree {s : State} {a : AccId} {sp : Spans} {evs : List Offence} (h : Good s.records a sp evs)
    (hok : sp.Ok) (d : Bool) (hd : d = false → s.spans.get a = some sp) (w : Nat) : Agree (dropSpans s a sp d w) a evs := by
  unfold dropSpans
  split
  · rename_i hd0
    refine ⟨fun sp' hsp' => ?_, fun hn => ?_⟩
    · rw [hd hd0] at hsp'
      cases hsp'
      exact h
    · rw [hd hd0] at hn; cases hn
  · refine ⟨fun sp' hsp' => ?_, fun hn => ?_⟩
    · simp only [FMap.get_insert_self, Option.some.injEq] at hsp'
      subst hsp'
      refine h.prune hok w fun i => ?_
      simp only
      cases hr : (sp.prune w).2 with
      | none => rfl
      | some p =>
        obtain ⟨b, c⟩ := p
        simp only
        rw [eraseRecords_get]
        simp only [true_and, List.mem_range'_1]
        by_cases hb : b ≤ i ∧ i < c
        · rw [if_pos hb, if_pos (by omega)]
        · rw [if_neg hb, if_neg (by omega)]
    · simp only [FMap.get_insert_self] at hn
      cases hn

theorem finish_eraSlash (s : State) (a : AccId) (sp : Spans) (d : Bool) (t : Option Nat) (w now : Nat) :
    (finish s a sp d t w now).eraSlash = s.eraSlash := by
  unfold finish dropSpans
  split <;> simp only <;> split <;> rfl

theorem fetch_eraSlash (s : State) (a : AccId) (w : Nat) : (fetchSpans s a w).1.eraSlash = s.eraSlash := by
  unfold fetchSpans
  split <;> rfl

/-- A report without any slash. -/
theorem kickOut_agree {s : State} {a : AccId} {evs : List Offence} {e w now : Nat} (h : Agree s a evs)
    (hs : SpOk s a w now) (hwe : w ≤ e) (hen : e ≤ now) :
    Agree (kickOut s a e w now) a (evs ++ [⟨e, 0, 0, 0⟩]) := by
  obtain ⟨h1, h2, h3, _⟩ := fetch_agree h w
  obtain ⟨_, g1, g2, g3⟩ := fetchSpans_spOk hs (Nat.le_trans hwe hen)
  unfold kickOut
  simp only
  obtain ⟨x, hx⟩ := Spans.eraSpan_cover g1 (Nat.le_trans g2 hwe)
  obtain ⟨hx1, hx2⟩ := (Spans.eraSpan_some g1).1 hx
  have hc := (Span.contains_iff x e).1 hx2
  rw [hx]
  unfold finish
  rw [← h2] at h1
  rcases Spans.iter_mem g1 hx1 with rfl | ⟨_, l, k1, k2, k3, k4, k5, k6⟩
  · rw [if_pos (show Option.map Span.index (some _) = some _ from rfl)]
    have hls : (fetchSpans s a w).2.lastStart ≤ now := Nat.le_trans hc.1 hen
    refine drop_agree ?_ (Spans.endSpan_ok g1 now) _ (fun hd => ?_) w
    · refine h1.close g1 (o := ⟨e, 0, 0, 0⟩) hc.1 hen rfl ?_ ?_ (fun i _ => rfl)
      · show (((fetchSpans s a w).1.records.get (a, (fetchSpans s a w).2.index)).getD ⟨0, 0⟩).slashed = 0
        rw [h1.fresh _ (Nat.le_refl _)]
        rfl
      · show (((fetchSpans s a w).1.records.get (a, (fetchSpans s a w).2.index)).getD ⟨0, 0⟩).paidOut = 0
        rw [h1.fresh _ (Nat.le_refl _)]
        rfl
    · rw [endSpan_eq hls] at hd
      cases hd
  · rw [if_neg (by simp only [Option.map_some, Option.some.injEq]; omega)]
    refine drop_agree ?_ g1 _ (fun _ => h3) w
    refine h1.raise g1 (o := ⟨e, 0, 0, 0⟩) hx1 k1 hx2 ?_ ?_ ?_ (fun i _ => rfl)
    · simp
    · simp
    · simp

/-- A report with a slash. -/
theorem slashSpan_agree {s : State} {a : AccId} {sp : Spans} {evs : List Offence} {e w now : Nat} {v : Balance}
    {oth : List AccId} (h : Good s.records a sp evs) (hsp : s.spans.get a = some sp) (g1 : sp.Ok) (g2 : sp.first ≤ w)
    (hwe : w ≤ e) (hen : e ≤ now) :
    Agree (slashSpan s a sp e w now v oth).1 a (evs ++ [⟨e, v, (slashSpan s a sp e w now v oth).2.own, (slashSpan s a sp e w now v oth).2.payout⟩]) := by
  obtain ⟨x, hx⟩ := Spans.eraSpan_cover g1 (Nat.le_trans g2 hwe)
  obtain ⟨hx1, hx2⟩ := (Spans.eraSpan_some g1).1 hx
  have hc := (Span.contains_iff x e).1 hx2
  unfold slashSpan
  rw [hx]
  simp only
  generalize hr : (s.records.get (a, x.index)).getD ⟨0, 0⟩ = r
  have hown : (compareRecord s.rewardProp v r).own = v - r.slashed := rfl
  generalize hcmp : compareRecord s.rewardProp v r = c at *
  have hrec : c.record.slashed = max r.slashed v := by rw [← hcmp]; rfl
  have hrec2 : c.record.paidOut = r.paidOut + c.paid := by rw [← hcmp]; rfl
  have hch2 : c.changed = false → c.paid = 0 := by
    rw [← hcmp]
    intro h0
    simp only [compareRecord, Bool.or_eq_false_iff, decide_eq_false_iff_not] at h0
    have := h0.2
    simp only [compareRecord]
    omega
  have hch : c.changed = false → v ≤ r.slashed := by
    rw [← hcmp]
    intro h0
    simp only [compareRecord, Bool.or_eq_false_iff, decide_eq_false_iff_not] at h0
    omega
  -- the records after the comparison
  obtain ⟨s1, hs1⟩ : ∃ s1, s1 = if c.changed = true then { s with records := s.records.insert (a, x.index) c.record } else s := ⟨_, rfl⟩
  have r1 : ((s1.records.get (a, x.index)).getD ⟨0, 0⟩).slashed = max r.slashed v := by
    rw [hs1]
    split
    · simp only [FMap.get_insert_self, Option.getD_some]; exact hrec
    · rename_i hn
      have := hch (by simpa using hn)
      rw [hr]
      omega
  have r1' : ((s1.records.get (a, x.index)).getD ⟨0, 0⟩).paidOut = r.paidOut + c.paid := by
    rw [hs1]
    split
    · simp only [FMap.get_insert_self, Option.getD_some]; exact hrec2
    · rename_i hn
      have := hch2 (by simpa using hn)
      rw [hr]
      omega
  have r2 : ∀ i, i ≠ x.index → s1.records.get (a, i) = s.records.get (a, i) := by
    intro i hi
    rw [hs1]
    split
    · exact FMap.get_insert_ne _ _ (fun h => hi (Prod.mk.inj h).2)
    · rfl
  have r3 : s1.spans = s.spans := by rw [hs1]; split <;> rfl
  obtain ⟨sp1, hsp1⟩ : ∃ sp1, sp1 = if 0 < c.own then { sp with lastNonzero := max sp.lastNonzero e } else sp := ⟨_, rfl⟩
  have q : sp1.index = sp.index ∧ sp1.lastStart = sp.lastStart ∧ sp1.prior = sp.prior := by
    rw [hsp1]; split <;> exact ⟨rfl, rfl, rfl⟩
  have q1 : sp1.Ok := ⟨by rw [q.2.2]; exact g1.pos, by rw [q.2.2, q.2.1]; exact g1.sum, by rw [q.2.2, q.1]; exact g1.len⟩
  have q2 : sp1.iter = sp.iter := by unfold Spans.iter; rw [q.1, q.2.1, q.2.2]
  have q3 : Good s.records a sp1 evs :=
    ⟨by rw [q2]; exact h.closed, by rw [q.2.1]; exact h.before, by rw [q.1]; exact h.fresh⟩
  have q4 : c.changed = false → sp1 = sp := by
    intro hn
    have := hch hn
    rw [hsp1, if_neg (by omega)]
  rw [← hs1, ← hsp1]
  unfold finish
  rcases Spans.iter_mem g1 hx1 with rfl | ⟨_, l, k1, k2, k3, k4, k5, k6⟩
  · simp only at *
    rw [if_pos (by rw [q.1])]
    have hls : sp1.lastStart ≤ now := by rw [q.2.1]; exact Nat.le_trans hc.1 hen
    have hr0 : r.slashed = 0 := by
      rw [← hr, h.fresh _ (Nat.le_refl _)]; rfl
    have hr1 : r.paidOut = 0 := by
      rw [← hr, h.fresh _ (Nat.le_refl _)]; rfl
    refine drop_agree ?_ (Spans.endSpan_ok q1 now) _ (fun hd => ?_) w
    · refine q3.close q1 (o := ⟨e, v, c.own, c.paid⟩) (by rw [q.2.1]; exact hc.1) hen (by simp only; omega) ?_ ?_ (fun i hi => ?_)
      · show (((chillStash s1 a).records.get (a, sp1.index)).getD ⟨0, 0⟩).slashed = v
        rw [q.1]
        exact r1.trans (by omega)
      · show (((chillStash s1 a).records.get (a, sp1.index)).getD ⟨0, 0⟩).paidOut = c.paid
        rw [q.1]
        exact r1'.trans (by omega)
      · exact r2 i (by rw [← q.1]; exact hi)
    · rw [endSpan_eq hls] at hd
      cases hd
  · rw [if_neg (by simp only [Option.some.injEq]; rw [q.1]; omega)]
    refine drop_agree ?_ q1 _ (fun hd => ?_) w
    · refine q3.raise q1 (o := ⟨e, v, c.own, c.paid⟩) (by rw [q2]; exact hx1) k1 hx2 ?_ ?_ ?_ r2
      · simp only; rw [hr, hown]
      · rw [hr]; exact r1
      · rw [hr]; exact r1'
    · rw [r3, q4 hd]; exact hsp

/-! ### The whole history -/

/-- Invariant of a history without removal of the stash. -/
structure History (cfg : Cfg) (s : State) (a : AccId) (evs : List Offence) : Prop where
  agree : Agree s a evs
  era : ∀ e p v, eraSlashOf s e a = some (p, v) → ∃ o ∈ evs, o.era = e ∧ perbill p (cfg.exposure e a).own ≤ o.value

theorem History.congr {cfg : Cfg} {s s' : State} {a : AccId} {evs : List Offence} (h : History cfg s a evs)
    (h1 : s'.spans.get a = s.spans.get a) (h2 : ∀ i, s'.records.get (a, i) = s.records.get (a, i))
    (h3 : ∀ e, eraSlashOf s' e a = none ∨ eraSlashOf s' e a = eraSlashOf s e a) : History cfg s' a evs := by
  refine ⟨⟨fun sp hsp => ?_, fun hn => ?_⟩, fun e p v he => ?_⟩
  · rw [h1] at hsp
    have := h.agree.1 sp hsp
    exact ⟨fun x hx l hl => by rw [h2]; exact this.closed x hx l hl, this.before, fun i hi => by rw [h2]; exact this.fresh i hi⟩
  · rw [h1] at hn
    obtain ⟨k1, k2⟩ := h.agree.2 hn
    exact ⟨k1, fun i => by rw [h2]; exact k2 i⟩
  · rcases h3 e with h3 | h3
    · rw [h3] at he; cases he
    · rw [h3] at he; exact h.era e p v he

theorem perbill_mono {p q x : Nat} (h : p ≤ q) : perbill p x ≤ perbill q x :=
  divNearestDown_mono (Nat.mul_le_mul_left x h)

theorem perbill_mono_right {p x y : Nat} (h : x ≤ y) : perbill p x ≤ perbill p y :=
  divNearestDown_mono (Nat.mul_le_mul_right p h)

theorem compute_history {cfg : Cfg} {s : State} {a : AccId} {evs : List Offence} {f e w now : Nat}
    (hown : (cfg.exposure e a).own ≤ (cfg.exposure e a).total) (h : History cfg s a evs)
    (hs : SpOk s a w now) (hwe : w ≤ e) (hen : e ≤ now) :
    History cfg (computeSlash cfg s a f e w now).1 a
      (evs ++ [⟨e, perbill f (cfg.exposure e a).own, ((computeSlash cfg s a f e w now).2.map Unapplied.own).getD 0,
        ((computeSlash cfg s a f e w now).2.map Unapplied.payout).getD 0⟩]) := by
  unfold computeSlash
  simp only
  split
  · rename_i h0
    have hv : perbill f (cfg.exposure e a).own = 0 := by
      have := perbill_mono_right (p := f) hown
      omega
    rw [hv]
    refine ⟨kickOut_agree h.agree hs hwe hen, ?_⟩
    intro e' p v he
    have : eraSlashOf (kickOut s a e w now) e' a = eraSlashOf s e' a := by
      unfold eraSlashOf kickOut
      simp only
      rw [finish_eraSlash, fetch_eraSlash]
    rw [this] at he
    obtain ⟨o, ho, h1⟩ := h.era e' p v he
    exact ⟨o, List.mem_append_left _ ho, h1⟩
  rename_i h0
  split
  · rename_i hle
    cases hg : eraSlashOf s e a with
    | none =>
      rw [hg] at hle
      simp only [Option.getD_none, Nat.le_zero] at hle
      subst hle
      exact absurd (by simp [perbill, divNearestDown_zero]) h0
    | some pv =>
      obtain ⟨p, v⟩ := pv
      rw [hg] at hle
      simp only [Option.getD_some] at hle
      obtain ⟨o, ho, h1, h2⟩ := h.era e p v hg
      have h3 := perbill_mono (x := (cfg.exposure e a).own) hle
      refine ⟨⟨fun sp hsp => ?_, fun hn => ?_⟩, fun e' p' v' he' => ?_⟩
      · exact (h.agree.1 sp hsp).repeat ho h1 (by simp only; omega) rfl rfl
      · rw [(h.agree.2 hn).1] at ho; cases ho
      · obtain ⟨o', ho', h'⟩ := h.era e' p' v' he'
        exact ⟨o', List.mem_append_left _ ho', h'⟩
  · obtain ⟨s1, hs1⟩ : ∃ s1, s1 = { s with eraSlash := s.eraSlash.insert e (((s.eraSlash.get e).getD ∅).insert a (f, perbill f (cfg.exposure e a).own)) } := ⟨_, rfl⟩
    rw [← hs1]
    have a1 : Agree s1 a evs := by rw [hs1]; exact h.agree
    have a2 : SpOk s1 a w now := by rw [hs1]; exact hs
    obtain ⟨h1, h2, h3, h4⟩ := fetch_agree a1 w
    obtain ⟨_, g1, g2, g3⟩ := fetchSpans_spOk a2 (Nat.le_trans hwe hen)
    rw [← h2] at h1
    simp only [Option.map_some, Option.getD_some]
    refine ⟨slashSpan_agree h1 h3 g1 g2 hwe hen, ?_⟩
    intro e' p v he
    have : eraSlashOf (slashSpan (fetchSpans s1 a w).1 a (fetchSpans s1 a w).2 e w now (perbill f (cfg.exposure e a).own) (cfg.exposure e a).others).1 e' a =
        eraSlashOf s1 e' a := by
      unfold eraSlashOf slashSpan
      split
      · unfold dropSpans; simp only [if_true]; rw [h4]
      · simp only
        rw [finish_eraSlash]
        split
        · rw [← h4]
        · rw [h4]
    rw [this, hs1, eraSlashOf_insert] at he
    split at he
    · rename_i hx
      cases he
      exact ⟨_, List.mem_append_right _ List.mem_cons_self, hx.1.symm, by rw [hx.1]⟩
    · obtain ⟨o, ho, h'⟩ := h.era e' p v he
      exact ⟨o, List.mem_append_left _ ho, h'⟩

theorem step_history {cfg : Cfg} {s : State} {a : AccId} {evs : List Offence}
    (hown : ∀ e b, (cfg.exposure e b).own ≤ (cfg.exposure e b).total) (ht : Times cfg s) (h : History cfg s a evs) (op : Op)
    (hk : ∀ o, (step cfg s op).2 ≠ .ledger o (some a)) :
    History cfg (step cfg s op).1 a (evs ++ ((offenceOf cfg a (s, op, (step cfg s op).2)).toList)) := by
  cases op with
  | ledger op n =>
    simp only [step, ledgerCall, offenceOf, Option.toList_none, List.append_nil] at hk ⊢
    split
    · exact h.congr rfl (fun _ => rfl) (fun _ => Or.inr rfl)
    · rename_i b hb
      have hba : a ≠ b := by
        rintro rfl
        exact hk _ (by rw [hb])
      obtain ⟨e1, e2, e3, e4, e5, e6, e7, e8⟩ := clearStash_fields { s with led := (Ledger.step cfg.led s.led (withSpans (spansOk s n (target s.led op)) op)).1 } b
      exact h.congr (e7 a hba) (fun i => e8 a i hba) (fun e => Or.inr (by unfold eraSlashOf; rw [e5]))
  | startEra session =>
    obtain ⟨applied, h1, hs⟩ := startEra_spec ht session
    simp only [step, offenceOf, Option.toList_none, List.append_nil]
    refine h.congr (by rw [hs.spans]) (fun i => by rw [hs.records]) (fun e => ?_)
    unfold eraSlashOf
    rcases hs.eraSlash e with he | he
    · rw [he]; exact Or.inl (by simp)
    · rw [he]; exact Or.inr rfl
  | offence i j b f r =>
    have hc := onOffence_cases cfg s i j b f r
    simp only [step]
    generalize onOffence cfg s i j b f r = x at hc
    have hse : ∀ (n : Nat), History cfg { s with earliest := some (s.earliest.getD n) } a evs := fun n =>
      h.congr rfl (fun _ => rfl) (fun _ => Or.inr rfl)
    have hspok : ∀ n, s.active = some n → SpOk s a (window cfg n) n := by
      intro n hn sp hsp
      obtain ⟨h1, m, h2, h3, h4⟩ := ht.spans a sp hsp
      rw [hn] at h2
      cases h2
      exact ⟨h1, h3, h4⟩
    cases hc with
    | ignored s' q h1 hq =>
      subst h1
      simp only [offenceOf, Option.toList_none, List.append_nil]
      exact h.congr rfl (fun _ => rfl) (fun _ => Or.inr rfl)
    | quiet n e hn he hi hc =>
      obtain ⟨i', j', he⟩ := he
      have hb := eraOf_bounds ht hn he
      by_cases hba : b = a
      · subst hba
        have := compute_history (f := f) (hown e b) (hse n) (hspok n hn) hb.1 hb.2
        rw [hc] at this
        simpa [offenceOf] using this
      · have hf := computeSlash_frame cfg { s with earliest := some (s.earliest.getD n) } b f e (window cfg n) n
        simp only [offenceOf, if_neg hba, Option.toList_none, List.append_nil]
        exact h.congr (hf.spans a (fun h => hba h.symm)) (fun i => hf.records a i (fun h => hba h.symm))
          (fun e => Or.inr (hf.era a e (fun h => hba h.symm)))
    | slashed n e u hn he hi hc =>
      obtain ⟨i', j', he⟩ := he
      have hb := eraOf_bounds ht hn he
      obtain ⟨e1, e2, e3, e4, e5, e6, e7⟩ := enqueue_fields cfg
        (computeSlash cfg { s with earliest := some (s.earliest.getD n) } b f e (window cfg n) n).1 n { u with reporters := r }
      have key : History cfg (computeSlash cfg { s with earliest := some (s.earliest.getD n) } b f e (window cfg n) n).1 a
          (evs ++ (offenceOf cfg a (s, .offence i j b f r, .reported e (some { u with reporters := r }))).toList) := by
        by_cases hba : b = a
        · subst hba
          have := compute_history (f := f) (hown e b) (hse n) (hspok n hn) hb.1 hb.2
          rw [hc] at this
          simpa [offenceOf] using this
        · have hf := computeSlash_frame cfg { s with earliest := some (s.earliest.getD n) } b f e (window cfg n) n
          simp only [offenceOf, if_neg hba, Option.toList_none, List.append_nil]
          exact h.congr (hf.spans a (fun h => hba h.symm)) (fun i => hf.records a i (fun h => hba h.symm))
            (fun e => Or.inr (hf.era a e (fun h => hba h.symm)))
      simp only
      exact key.congr (by rw [e3]) (fun i => by rw [e4]) (fun e => Or.inr (by unfold eraSlashOf; rw [e5]))
  | cancel k e idx =>
    simp only [step]
    split
    · rename_i s' hc
      obtain ⟨_, _, _, _, rfl⟩ := cancel_ok hc
      simp only [offenceOf, Option.toList_none, List.append_nil]
      exact h.congr rfl (fun _ => rfl) (fun _ => Or.inr rfl)
    · simp only [offenceOf, Option.toList_none, List.append_nil]
      exact h
  | setInvulnerables l =>
    simp only [step, offenceOf, Option.toList_none, List.append_nil]
    exact h.congr rfl (fun _ => rfl) (fun _ => Or.inr rfl)
  | setRewardProp p =>
    simp only [step, offenceOf, Option.toList_none, List.append_nil]
    exact h.congr rfl (fun _ => rfl) (fun _ => Or.inr rfl)

theorem run_history {cfg : Cfg} (hown : ∀ e b, (cfg.exposure e b).own ≤ (cfg.exposure e b).total) (a : AccId) (ops : List Op) :
    ∀ s evs, Times cfg s → History cfg s a evs → NotKilled a (run cfg s ops).2 →
    History cfg (run cfg s ops).1 a (evs ++ offences cfg a (run cfg s ops).2) := by
  induction ops with
  | nil => intro s evs _ h _; simpa [offences, run] using h
  | cons op ops ih =>
    intro s evs ht h hk
    have h1 := step_history hown ht h op (fun o => hk _ List.mem_cons_self o)
    have h2 := ih (step cfg s op).1 _ (step_times ht op) h1 (fun x hx => hk x (List.mem_cons_of_mem _ hx))
    simp only [run, offences, List.filterMap_cons]
    cases ho : offenceOf cfg a (s, op, (step cfg s op).2) with
    | none => rw [ho] at h2; simpa [offences] using h2
    | some o => rw [ho] at h2; simpa [offences] using h2

/-- C40. In every history, as long as the stash is not removed: for each of its slashing spans on record,
everything slashed because of reports of offences in eras of the span is together exactly the largest single
slash that one of these reports calls for. The right hand side does not depend on the order of reports, and
repeated reports of one era count once, with their highest fraction. -/
theorem C40_worst_counts (cfg : Cfg) (bank : Bank) (m : Balance) (ops : List Op) (a : AccId) (sp : Spans)
    (hown : ∀ e b, (cfg.exposure e b).own ≤ (cfg.exposure e b).total)
    (hk : NotKilled a (run cfg (genesis bank m) ops).2)
    (h : (run cfg (genesis bank m) ops).1.spans.get a = some sp) :
    ∀ x ∈ sp.iter, total (within x (offences cfg a (run cfg (genesis bank m) ops).2)) =
      worst (within x (offences cfg a (run cfg (genesis bank m) ops).2)) := by
  have ht := run_times cfg ops _ (genesis_times cfg bank m)
  have hg : History cfg (genesis bank m) a [] :=
    ⟨⟨fun sp hsp => by simp [genesis] at hsp, fun _ => ⟨rfl, fun i => by simp [genesis]⟩⟩,
      fun e p v he => by simp [genesis, eraSlashOf] at he⟩
  have hh := run_history hown a ops _ [] (genesis_times cfg bank m) hg hk
  rw [List.nil_append] at hh
  have hgood := hh.agree.1 sp h
  intro x hx
  rcases sp.iter_mem (ht.spans a sp h).1 hx with rfl | ⟨_, l, g1, _⟩
  · rw [within_empty (x := ⟨sp.index, sp.lastStart, none⟩) hgood.before]
    rfl
  · obtain ⟨c1, c2, -⟩ := hgood.closed x hx l g1
    rw [c1, c2]

/-- C40. The order of reports does not matter: two histories whose accepted reports in eras of a span call for
the same slashes, in any order, lead to the same total slash. -/
theorem C40_order (cfg : Cfg) (bank bank' : Bank) (m m' : Balance) (ops ops' : List Op) (a : AccId) (sp sp' : Spans) (x : Span)
    (hown : ∀ e b, (cfg.exposure e b).own ≤ (cfg.exposure e b).total)
    (hk : NotKilled a (run cfg (genesis bank m) ops).2) (hk' : NotKilled a (run cfg (genesis bank' m') ops').2)
    (h : (run cfg (genesis bank m) ops).1.spans.get a = some sp) (h' : (run cfg (genesis bank' m') ops').1.spans.get a = some sp')
    (hx : x ∈ sp.iter) (hx' : x ∈ sp'.iter)
    (hp : ((within x (offences cfg a (run cfg (genesis bank m) ops).2)).map Offence.value).Perm
      ((within x (offences cfg a (run cfg (genesis bank' m') ops').2)).map Offence.value)) :
    total (within x (offences cfg a (run cfg (genesis bank m) ops).2)) =
      total (within x (offences cfg a (run cfg (genesis bank' m') ops').2)) := by
  rw [C40_worst_counts cfg bank m ops a sp hown hk h x hx, C40_worst_counts cfg bank' m' ops' a sp' hown hk' h' x hx']
  exact hp.foldl_eq (f := max) (rcomm := ⟨fun b a c => by omega⟩) 0

/-! ### Losing candidacy -/

theorem finish_chills {s : State} {a : AccId} {sp : Spans} {d : Bool} {t : Option Nat} {w now : Nat}
    (ht : t = some sp.index) : (finish s a sp d t w now).led.validators.get a = none := by
  unfold finish
  rw [if_pos ht]
  simp only
  unfold dropSpans
  split
  · exact FMap.get_erase_self _ _
  · exact FMap.get_erase_self _ _

theorem ongoing_span {sp : Spans} {e : Nat} (h : sp.lastStart ≤ e) :
    sp.eraSpan e = some ⟨sp.index, sp.lastStart, none⟩ := by
  unfold Spans.eraSpan Spans.iter
  rw [List.find?_cons_of_pos]
  rw [Span.contains_iff]
  exact ⟨h, (fun l hl => by cases hl)⟩

theorem fetch_lastStart {s : State} {a : AccId} {w e : Nat} (hw : w ≤ e)
    (h : ∀ sp, s.spans.get a = some sp → sp.lastStart ≤ e) : (fetchSpans s a w).2.lastStart ≤ e := by
  unfold fetchSpans
  split
  · rename_i sp hsp; exact h sp hsp
  · exact hw

theorem compute_chills {cfg : Cfg} {s : State} {a : AccId} {evs : List Offence} {f e w now : Nat}
    (h : History cfg s a evs) (hwe : w ≤ e) (hlast : ∀ sp, s.spans.get a = some sp → sp.lastStart ≤ e) :
    (computeSlash cfg s a f e w now).1.led.validators.get a = none := by
  unfold computeSlash
  simp only
  split
  · unfold kickOut
    simp only
    rw [ongoing_span (fetch_lastStart hwe hlast)]
    exact finish_chills rfl
  rename_i h0
  split
  · rename_i hle
    exfalso
    cases hg : eraSlashOf s e a with
    | none =>
      rw [hg] at hle
      simp only [Option.getD_none, Nat.le_zero] at hle
      subst hle
      exact absurd (by simp [perbill, divNearestDown_zero]) h0
    | some pv =>
      obtain ⟨p, v⟩ := pv
      obtain ⟨o, ho, h1, _⟩ := h.era e p v hg
      cases hsp : s.spans.get a with
      | none => rw [(h.agree.2 hsp).1] at ho; cases ho
      | some sp =>
        have := (h.agree.1 sp hsp).before o ho
        have := hlast sp hsp
        omega
  · unfold slashSpan
    rw [ongoing_span (fetch_lastStart (s := { s with eraSlash := s.eraSlash.insert e (((s.eraSlash.get e).getD ∅).insert a (f, perbill f (cfg.exposure e a).own)) }) hwe hlast)]
    simp only
    refine finish_chills ?_
    split <;> rfl

theorem doSlash_validators (cfg : Ledger.Cfg) (s : Ledger.State) (a : AccId) (v : Balance) :
    (Ledger.doSlash cfg s a v).1.validators = s.validators := by
  unfold Ledger.doSlash
  split
  · rfl
  split
  · rfl
  simp only
  split
  · rfl
  · unfold Ledger.updateLedger Ledger.setLock
    simp only
    split <;> rfl

/-- C68. A validator reported for an offence in an era of its ongoing span (or reported for the first time)
is no candidate any more right after the report was accepted, whatever the size of the slash. -/
theorem C68_reported_not_candidate (cfg : Cfg) (bank : Bank) (m : Balance) (ops : List Op) (a : AccId)
    (i j f e : Nat) (rs : List AccId) (u : Option Unapplied)
    (hown : ∀ e b, (cfg.exposure e b).own ≤ (cfg.exposure e b).total)
    (hk : NotKilled a (run cfg (genesis bank m) ops).2)
    (hout : (step cfg (run cfg (genesis bank m) ops).1 (.offence i j a f rs)).2 = .reported e u)
    (hlast : ∀ sp, (run cfg (genesis bank m) ops).1.spans.get a = some sp → sp.lastStart ≤ e) :
    (step cfg (run cfg (genesis bank m) ops).1 (.offence i j a f rs)).1.led.validators.get a = none := by
  have ht := run_times cfg ops _ (genesis_times cfg bank m)
  have hg : History cfg (genesis bank m) a [] :=
    ⟨⟨fun sp hsp => by simp [genesis] at hsp, fun _ => ⟨rfl, fun i => by simp [genesis]⟩⟩,
      fun e p v he => by simp [genesis, eraSlashOf] at he⟩
  have hh := run_history hown a ops _ [] (genesis_times cfg bank m) hg hk
  generalize (run cfg (genesis bank m) ops).1 = s at *
  simp only [step] at hout ⊢
  have hc := onOffence_cases cfg s i j a f rs
  generalize onOffence cfg s i j a f rs = x at hc hout
  have hse : ∀ (n : Nat), History cfg { s with earliest := some (s.earliest.getD n) } a ([] ++ offences cfg a (run cfg (genesis bank m) ops).2) :=
    fun n => hh.congr rfl (fun _ => rfl) (fun _ => Or.inr rfl)
  cases hc with
  | ignored s' q h1 hq => cases hout
  | quiet n e' hn he hi hc =>
    cases hout
    obtain ⟨i', j', he⟩ := he
    exact compute_chills (hse n) (eraOf_bounds ht hn he).1 hlast
  | slashed n e' u hn he hi hc =>
    cases hout
    obtain ⟨i', j', he⟩ := he
    have := compute_chills (f := f) (now := n) (hse n) (eraOf_bounds ht hn he).1 hlast
    simp only
    unfold enqueue
    split
    · unfold applySlash
      simp only
      rw [doSlash_validators]
      exact this
    · exact this

theorem finish_keeps {s : State} {a : AccId} {sp : Spans} {d : Bool} {t : Option Nat} {w now : Nat}
    (ht : t ≠ some sp.index) : (finish s a sp d t w now).led = s.led := by
  unfold finish
  rw [if_neg ht]
  unfold dropSpans
  split <;> rfl

theorem old_span {sp : Spans} (h : sp.Ok) {e : Nat} (he : e < sp.lastStart) :
    (sp.eraSpan e).map Span.index ≠ some sp.index := by
  cases hx : sp.eraSpan e with
  | none => exact (fun h => by cases h)
  | some x =>
    obtain ⟨h1, h2⟩ := (sp.eraSpan_some h).1 hx
    rcases sp.iter_mem h h1 with rfl | ⟨_, l, g1, g2, g3, g4, g5, g6⟩
    · have := ((Span.contains_iff _ e).1 h2).1
      simp only at this
      omega
    · simp only [Option.map_some, ne_eq, Option.some.injEq]
      omega

theorem compute_keeps {cfg : Cfg} {s : State} {a : AccId} {sp : Spans} {f e w now : Nat}
    (hsp : s.spans.get a = some sp) (hok : sp.Ok) (hlast : e < sp.lastStart) :
    (computeSlash cfg s a f e w now).1.led = s.led := by
  have ho := old_span hok hlast
  unfold computeSlash
  simp only
  split
  · unfold kickOut fetchSpans
    rw [hsp]
    exact finish_keeps ho
  split
  · rfl
  · have hf : fetchSpans { s with eraSlash := s.eraSlash.insert e (((s.eraSlash.get e).getD ∅).insert a (f, perbill f (cfg.exposure e a).own)) } a w = ({ s with eraSlash := s.eraSlash.insert e (((s.eraSlash.get e).getD ∅).insert a (f, perbill f (cfg.exposure e a).own)) }, sp) := by
      unfold fetchSpans
      simp only
      rw [hsp]
    rw [hf]
    unfold slashSpan
    split
    · unfold dropSpans
      simp
    · rename_i x hx
      rw [hx] at ho
      simp only
      rw [finish_keeps]
      · split <;> rfl
      · simp only [Option.map_some] at ho
        split <;> exact ho

/-- C68. A report of an offence in an era before the ongoing span does not change the list of candidates. -/
theorem C68_old_report_keeps (cfg : Cfg) (bank : Bank) (m : Balance) (ops : List Op) (a : AccId)
    (i j f e : Nat) (rs : List AccId) (u : Option Unapplied) (sp : Spans)
    (hout : (step cfg (run cfg (genesis bank m) ops).1 (.offence i j a f rs)).2 = .reported e u)
    (hsp : (run cfg (genesis bank m) ops).1.spans.get a = some sp) (hlast : e < sp.lastStart) :
    (step cfg (run cfg (genesis bank m) ops).1 (.offence i j a f rs)).1.led.validators =
      (run cfg (genesis bank m) ops).1.led.validators := by
  have ht := run_times cfg ops _ (genesis_times cfg bank m)
  generalize (run cfg (genesis bank m) ops).1 = s at *
  have hok := (ht.spans a sp hsp).1
  simp only [step] at hout ⊢
  have hc := onOffence_cases cfg s i j a f rs
  generalize onOffence cfg s i j a f rs = x at hc hout
  cases hc with
  | ignored s' q h1 hq => cases hout
  | quiet n e' hn he hi hc =>
    cases hout
    exact congrArg Ledger.State.validators (compute_keeps (s := { s with earliest := some (s.earliest.getD n) }) hsp hok hlast)
  | slashed n e' u hn he hi hc =>
    cases hout
    have := congrArg Ledger.State.validators (compute_keeps (cfg := cfg) (s := { s with earliest := some (s.earliest.getD n) }) (f := f) (w := window cfg n) (now := n) hsp hok hlast)
    simp only
    unfold enqueue
    split
    · unfold applySlash
      simp only
      rw [doSlash_validators]
      exact this
    · exact this

/-! ### Example -/

def histCfg : Cfg := ⟨⟨3, 32, false⟩, 1, 99, fun _ a => if a = 1 then ⟨600, 500, [7]⟩ else ⟨0, 0, []⟩⟩

def histBank : Bank :=
  { ed := 1, accts := ((∅ : FMap AccId Acct).insert 1 ⟨1000, 0⟩).insert 99 ⟨10, 0⟩, frozen := fun _ => 0, pinned := fun _ => true, issuance := 1010 }

/-- Validator 1 is reported for era 1 with 10%, 40%, 20%, and then for era 0 with 30%: all in one span, and
altogether 40% of the stake are slashed. -/
example :
    let r := run histCfg (genesis histBank 10) [.ledger (.bond 1 2 500 .staked true) 0, .startEra 0, .startEra 6, .offence 6 7 1 100000000 [5],
      .offence 6 8 1 400000000 [5], .offence 6 8 1 200000000 [5], .offence 6 3 1 300000000 []]
    offences histCfg 1 r.2 = [⟨1, 50, 50, 0⟩, ⟨1, 200, 150, 0⟩, ⟨1, 100, 0, 0⟩, ⟨0, 150, 0, 0⟩] ∧
    r.1.spans.get 1 = some ⟨1, 2, 1, [2]⟩ ∧ (⟨0, 0, some 2⟩ : Span) ∈ Spans.iter ⟨1, 2, 1, [2]⟩ ∧
    total (within ⟨0, 0, some 2⟩ (offences histCfg 1 r.2)) = 200 := by
  decide +kernel

/-- A candidate that is reported with a negligible fraction is removed; it may become candidate again and is
not removed by a report of an era before. -/
example :
    let ops : List Op := [.ledger (.bond 1 2 500 .staked true) 0, .ledger (.validate 2 (0, false)) 0, .startEra 0, .startEra 6]
    (run histCfg (genesis histBank 10) ops).1.led.validators.get 1 = some (0, false) ∧
    (run histCfg (genesis histBank 10) (ops ++ [.offence 6 7 1 1 []])).1.led.validators.get 1 = none ∧
    (run histCfg (genesis histBank 10) (ops ++ [.offence 6 7 1 1 [], .ledger (.validate 2 (0, false)) 0, .offence 6 3 1 300000000 []])).1.led.validators.get 1 = some (0, false) := by
  decide +kernel

example : ∀ e b, (histCfg.exposure e b).own ≤ (histCfg.exposure e b).total := by
  intro e b
  simp only [histCfg]
  split <;> decide

end Verif.Slashing
