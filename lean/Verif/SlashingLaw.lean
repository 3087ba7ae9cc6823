import Verif.SlashingHistory
import Mathlib.Data.List.Induction

/-
Property C97: which reports of offences are considered, for which era, and what they lead to; when
deferred slashes can be cancelled.
-/

namespace Verif.Slashing

open Verif

/-! ### Specification -/

/-- The eras started so far with their first sessions, oldest first. -/
def eraStarts (tr : List (State × Op × Out)) : List (Nat × Nat) :=
  tr.filterMap fun x => match x with
    | (_, .startEra j, .started e _) => some (e, j)
    | _ => none

/-- The era of a session: the last one which started with a session not later. -/
def eraAt (starts : List (Nat × Nat)) (session : Nat) : Option Nat :=
  ((starts.filter fun p => p.2 ≤ session).getLast?).map Prod.fst

/-- The fractions of the reports of a stash for an era which led to an entry in the queue of slashes. -/
def priorFractions (a : AccId) (e : Nat) (tr : List (State × Op × Out)) : List Nat :=
  tr.filterMap fun x => match x with
    | (_, .offence _ _ b f _, .reported e' (some _)) => if b = a ∧ e' = e then some f else none
    | _ => none

/-! ### Eras -/

/-- Everything recorded about the eras and the slashes by era. -/
structure Recorded (cfg : Cfg) (s : State) (tr : List (State × Op × Out)) : Prop where
  none : s.active = none → eraStarts tr = [] ∧ s.bondedEras = []
  eras : ∀ n, s.active = some n → (eraStarts tr).map Prod.fst = List.range (n + 1)
  bonded : ∀ n, s.active = some n → s.bondedEras = (eraStarts tr).filter fun p => window cfg n ≤ p.1
  fraction : ∀ a e, (∀ n, s.active = some n → window cfg n ≤ e) →
    ((eraSlashOf s e a).getD (0, 0)).1 = (priorFractions a e tr).foldl max 0

theorem dropWhile_filter (k : Nat) (l : List (Nat × Nat)) (h : l.Pairwise fun p q => p.1 < q.1) :
    l.dropWhile (fun p => decide (p.1 < k)) = l.filter fun p => k ≤ p.1 := by
  induction l with
  | nil => rfl
  | cons x l ih =>
    obtain ⟨h1, h2⟩ := List.pairwise_cons.1 h
    by_cases hx : x.1 < k
    · rw [List.dropWhile_cons_of_pos (by simpa using hx), List.filter_cons_of_neg (by simp; omega), ih h2]
    · rw [List.dropWhile_cons_of_neg (by simpa using hx), List.filter_cons_of_pos (by simp; omega)]
      congr 1
      symm
      rw [List.filter_eq_self]
      intro p hp
      have := h1 p hp
      simp only [decide_eq_true_eq]; omega

theorem range_sorted {l : List (Nat × Nat)} {n : Nat} (h : l.map Prod.fst = List.range n) :
    l.Pairwise fun p q => p.1 < q.1 := by
  have := List.pairwise_lt_range (n := n)
  rw [← h, List.pairwise_map] at this
  exact this

theorem startEra_eras (cfg : Cfg) (s : State) (j : Nat) :
    (startEra cfg s j).1.active = some (nextEra s) ∧
    (startEra cfg s j).1.bondedEras = (s.bondedEras ++ [(nextEra s, j)]).drop (prunedEras cfg (nextEra s) (s.bondedEras ++ [(nextEra s, j)])).length ∧
    (startEra cfg s j).1.eraSlash = (prunedEras cfg (nextEra s) (s.bondedEras ++ [(nextEra s, j)])).foldl (fun m (p : Nat × Nat) => m.erase p.1) s.eraSlash := by
  obtain ⟨s1, hs1⟩ : ∃ s1, s1 = { s with active := some (nextEra s), bondedEras := (s.bondedEras ++ [(nextEra s, j)]).drop (prunedEras cfg (nextEra s) (s.bondedEras ++ [(nextEra s, j)])).length, eraSlash := (prunedEras cfg (nextEra s) (s.bondedEras ++ [(nextEra s, j)])).foldl (fun m (p : Nat × Nat) => m.erase p.1) s.eraSlash } := ⟨_, rfl⟩
  have hst : (startEra cfg s j).1 = (applyUnapplied cfg s1 (nextEra s)).1 := by
    rw [hs1]; rfl
  rw [hst]
  unfold applyUnapplied
  split
  · rw [hs1]; exact ⟨rfl, rfl, rfl⟩
  · rename_i q hq
    obtain ⟨i1, i2, i3, i4, i5, i6, i7, i8⟩ := applyEras_spec cfg (List.range' q (nextEra s - cfg.defer - q)) s1 (nodup_range' _ _)
    simp only
    rw [i1, i2, i5, hs1]
    exact ⟨rfl, rfl, rfl⟩

theorem pruned_drop {cfg : Cfg} {n : Nat} {l : List (Nat × Nat)} (h : l.Pairwise fun p q => p.1 < q.1) :
    l.drop (prunedEras cfg n l).length = l.filter fun p => window cfg n ≤ p.1 := by
  unfold prunedEras
  split
  · rw [takeWhile_drop, dropWhile_filter _ _ h]
    rfl
  · rename_i hn
    have : window cfg n = 0 := by unfold window; omega
    rw [this]
    simp

theorem takeWhile_imp {α : Type} {q : α → Bool} {l : List α} {x : α} (h : x ∈ l.takeWhile q) : q x = true := by
  induction l with
  | nil => cases h
  | cons y l ih =>
    by_cases hy : q y = true
    · rw [List.takeWhile_cons_of_pos hy] at h
      rcases List.mem_cons.1 h with rfl | h
      · exact hy
      · exact ih h
    · rw [List.takeWhile_cons_of_neg hy] at h; cases h

theorem pruned_small {cfg : Cfg} {n e : Nat} {l : List (Nat × Nat)} (he : window cfg n ≤ e) :
    e ∉ (prunedEras cfg n l).map Prod.fst := by
  unfold prunedEras
  split
  · intro hm
    rw [List.mem_map] at hm
    obtain ⟨p, hp, rfl⟩ := hm
    have := takeWhile_imp hp
    simp only [decide_eq_true_eq] at this
    unfold window at he
    omega
  · simp

theorem foldl_max_snoc (l : List Nat) (x : Nat) : (l ++ [x]).foldl max 0 = max (l.foldl max 0) x := by simp

theorem compute_fraction (cfg : Cfg) (s : State) (a : AccId) (f e w now : Nat) :
    ((computeSlash cfg s a f e w now).2 = none ∧ (computeSlash cfg s a f e w now).1.eraSlash = s.eraSlash ∧
      (perbill f (cfg.exposure e a).total = 0 ∨ f ≤ ((eraSlashOf s e a).getD (0, 0)).1)) ∨
    (∃ u, (computeSlash cfg s a f e w now).2 = some u ∧ u.validator = a ∧ u.others = (cfg.exposure e a).others ∧
      perbill f (cfg.exposure e a).total ≠ 0 ∧ ((eraSlashOf s e a).getD (0, 0)).1 < f ∧
      (∀ e' b, eraSlashOf (computeSlash cfg s a f e w now).1 e' b =
        if e' = e ∧ b = a then some (f, perbill f (cfg.exposure e a).own) else eraSlashOf s e' b)) := by
  unfold computeSlash
  simp only
  split
  · rename_i h0
    left
    refine ⟨rfl, ?_, Or.inl h0⟩
    unfold kickOut
    simp only
    rw [finish_eraSlash, fetch_eraSlash]
  rename_i h0
  split
  · rename_i hle
    exact Or.inl ⟨rfl, rfl, Or.inr hle⟩
  · rename_i hle
    right
    refine ⟨_, rfl, ?_, ?_, h0, by omega, ?_⟩
    · unfold slashSpan; split <;> rfl
    · unfold slashSpan; split <;> rfl
    · intro e' b
      rw [← eraSlashOf_insert]
      generalize { s with eraSlash := s.eraSlash.insert e (((s.eraSlash.get e).getD ∅).insert a (f, perbill f (cfg.exposure e a).own)) } = s1
      have h4 := fetch_eraSlash s1 a w
      unfold eraSlashOf slashSpan
      split
      · unfold dropSpans; simp only [if_true]; rw [h4]
      · simp only
        rw [finish_eraSlash]
        split
        · rw [← h4]
        · rw [h4]

theorem Recorded.same {cfg : Cfg} {s s' : State} {tr : List (State × Op × Out)} (h : Recorded cfg s tr)
    {x : State × Op × Out} (h1 : s'.active = s.active) (h2 : s'.bondedEras = s.bondedEras)
    (h3 : ∀ e a, eraSlashOf s' e a = eraSlashOf s e a) (h4 : eraStarts [x] = [])
    (h5 : ∀ a e, priorFractions a e [x] = []) : Recorded cfg s' (tr ++ [x]) := by
  have e1 : eraStarts (tr ++ [x]) = eraStarts tr := by
    unfold eraStarts at *
    rw [List.filterMap_append, h4, List.append_nil]
  have e2 : ∀ a e, priorFractions a e (tr ++ [x]) = priorFractions a e tr := by
    intro a e
    have := h5 a e
    unfold priorFractions at *
    rw [List.filterMap_append, this, List.append_nil]
  refine ⟨?_, ?_, ?_, ?_⟩
  · rw [h1, h2, e1]; exact h.none
  · rw [h1, e1]; exact h.eras
  · rw [h1, h2, e1]; exact h.bonded
  · intro a e
    rw [h1, h3, e2]
    exact h.fraction a e

theorem Recorded.step {cfg : Cfg} {s : State} {tr : List (State × Op × Out)} (h : Recorded cfg s tr)
    (ht : Times cfg s) (op : Op) : Recorded cfg (step cfg s op).1 (tr ++ [(s, op, (step cfg s op).2)]) := by
  cases op with
  | ledger op n =>
    simp only [Slashing.step, ledgerCall]
    split
    · exact h.same rfl rfl (fun _ _ => rfl) rfl (fun _ _ => rfl)
    · rename_i b hb
      obtain ⟨e1, e2, e3, e4, e5, e6, e7, e8⟩ := clearStash_fields { s with led := (Ledger.step cfg.led s.led (withSpans (spansOk s n (target s.led op)) op)).1 } b
      exact h.same e1 e2 (fun e a => by unfold eraSlashOf; rw [e5]) rfl (fun _ _ => rfl)
  | cancel k e idx =>
    simp only [Slashing.step]
    split
    · rename_i s' hc
      obtain ⟨_, _, _, _, rfl⟩ := cancel_ok hc
      exact h.same rfl rfl (fun _ _ => rfl) rfl (fun _ _ => rfl)
    · exact h.same rfl rfl (fun _ _ => rfl) rfl (fun _ _ => rfl)
  | setInvulnerables l => exact h.same rfl rfl (fun _ _ => rfl) rfl (fun _ _ => rfl)
  | setRewardProp p => exact h.same rfl rfl (fun _ _ => rfl) rfl (fun _ _ => rfl)
  | startEra j =>
    obtain ⟨applied, h1, -⟩ := startEra_spec ht j
    obtain ⟨g1, g2, g3⟩ := startEra_eras cfg s j
    simp only [Slashing.step]
    rw [h1]
    have e1 : eraStarts (tr ++ [(s, .startEra j, .started (nextEra s) applied)]) = eraStarts tr ++ [(nextEra s, j)] := by
      unfold eraStarts; rw [List.filterMap_append]; rfl
    have e2 : ∀ a e, priorFractions a e (tr ++ [(s, .startEra j, .started (nextEra s) applied)]) = priorFractions a e tr := by
      intro a e; unfold priorFractions; rw [List.filterMap_append]; simp
    have hr : (eraStarts tr ++ [(nextEra s, j)]).map Prod.fst = List.range (nextEra s + 1) := by
      rw [List.map_append, List.range_succ]
      cases hn : s.active with
      | none => simp [nextEra, hn, (h.none hn).1]
      | some n => rw [h.eras n hn]; simp [nextEra, hn]
    have hb : s.bondedEras ++ [(nextEra s, j)] = (eraStarts tr ++ [(nextEra s, j)]).filter fun p => window cfg (nextEra s - 1) ≤ p.1 := by
      rw [List.filter_append, List.filter_cons_of_pos (by unfold window; simp only [decide_eq_true_eq]; omega)]
      cases hn : s.active with
      | none => rw [(h.none hn).1, (h.none hn).2]; rfl
      | some n =>
        rw [h.bonded n hn]
        have : nextEra s - 1 = n := by simp [nextEra, hn]
        rw [this]; rfl
    have hs := range_sorted hr
    refine ⟨?_, ?_, ?_, ?_⟩
    · rw [g1]; intro hc; cases hc
    · rw [g1]; rintro n hn; cases hn; rw [e1]; exact hr
    · rw [g1]; rintro n hn; cases hn
      rw [g2, e1, pruned_drop (by rw [hb]; exact hs.filter _), hb, List.filter_filter]
      apply List.filter_congr
      intro p hp
      have : window cfg (nextEra s - 1) ≤ window cfg (nextEra s) := by unfold window; omega
      by_cases hw : window cfg (nextEra s) ≤ p.1
      · have : window cfg (nextEra s - 1) ≤ p.1 := by omega
        simp [hw, this]
      · simp [hw]
    · intro a e he
      rw [g1] at he
      have he := he _ rfl
      rw [e2]
      have : eraSlashOf (startEra cfg s j).1 e a = eraSlashOf s e a := by
        unfold eraSlashOf
        rw [g3, erase_eras, if_neg (pruned_small he)]
      rw [this]
      refine h.fraction a e fun n hn => ?_
      have : nextEra s = n + 1 := by simp [nextEra, hn]
      rw [this] at he
      unfold window at *
      omega
  | offence i j b f r =>
    have hc := onOffence_cases cfg s i j b f r
    simp only [Slashing.step]
    generalize onOffence cfg s i j b f r = x at hc
    cases hc with
    | ignored s' q h1 hq =>
      subst h1
      exact h.same rfl rfl (fun _ _ => rfl) rfl (fun _ _ => rfl)
    | quiet n e hn he hi hc =>
      have hf := computeSlash_frame cfg { s with earliest := some (s.earliest.getD n) } b f e (window cfg n) n
      rcases compute_fraction cfg { s with earliest := some (s.earliest.getD n) } b f e (window cfg n) n with ⟨-, h2, -⟩ | ⟨u, h2, -⟩
      · exact h.same hf.active hf.bondedEras (fun e a => by unfold eraSlashOf; rw [h2]) rfl (fun _ _ => rfl)
      · rw [hc] at h2; cases h2
    | slashed n e u hn he hi hc =>
      obtain ⟨i', j', he⟩ := he
      have hbd := eraOf_bounds ht hn he
      have hf := computeSlash_frame cfg { s with earliest := some (s.earliest.getD n) } b f e (window cfg n) n
      obtain ⟨e1, e2, e3, e4, e5, e6, e7⟩ := enqueue_fields cfg
        (computeSlash cfg { s with earliest := some (s.earliest.getD n) } b f e (window cfg n) n).1 n { u with reporters := r }
      rcases compute_fraction cfg { s with earliest := some (s.earliest.getD n) } b f e (window cfg n) n with ⟨h2, -⟩ | ⟨u', h2, -, -, -, h6, h7⟩
      · rw [hc] at h2; cases h2
      simp only
      have k1 : eraStarts (tr ++ [(s, .offence i j b f r, .reported e (some { u with reporters := r }))]) = eraStarts tr := by
        unfold eraStarts; rw [List.filterMap_append]; simp
      refine ⟨?_, ?_, ?_, ?_⟩
      · rw [e1, hf.active, e2, hf.bondedEras, k1]; exact h.none
      · rw [e1, hf.active, k1]; exact h.eras
      · rw [e1, hf.active, e2, hf.bondedEras, k1]; exact h.bonded
      · intro a e' hw
        rw [e1, hf.active] at hw
        have hw : ∀ n, s.active = some n → window cfg n ≤ e' := hw
        have k2 : priorFractions a e' (tr ++ [(s, .offence i j b f r, .reported e (some { u with reporters := r }))])
            = if b = a ∧ e = e' then priorFractions a e' tr ++ [f] else priorFractions a e' tr := by
          unfold priorFractions; rw [List.filterMap_append]
          by_cases hx : b = a ∧ e = e'
          · simp [hx]
          · simp [hx]
        have k3 : eraSlashOf (enqueue cfg (computeSlash cfg { s with earliest := some (s.earliest.getD n) } b f e (window cfg n) n).1 n { u with reporters := r }) e' a
            = eraSlashOf (computeSlash cfg { s with earliest := some (s.earliest.getD n) } b f e (window cfg n) n).1 e' a := by
          unfold eraSlashOf; rw [e5]
        have k4 := h.fraction a e' hw
        rw [k3, k2, h7]
        by_cases hx : b = a ∧ e = e'
        · obtain ⟨rfl, rfl⟩ := hx
          rw [if_pos ⟨rfl, rfl⟩, if_pos ⟨rfl, rfl⟩, foldl_max_snoc, ← k4]
          have h6 : ((eraSlashOf s e b).getD (0, 0)).1 < f := h6
          simp only [Option.getD_some]
          omega
        · rw [if_neg (fun hh => hx ⟨hh.2.symm, hh.1.symm⟩), if_neg hx]
          exact k4

theorem run_snoc (cfg : Cfg) (ops : List Op) (op : Op) : ∀ s,
    run cfg s (ops ++ [op]) = ((step cfg (run cfg s ops).1 op).1,
      (run cfg s ops).2 ++ [((run cfg s ops).1, op, (step cfg (run cfg s ops).1 op).2)]) := by
  induction ops with
  | nil => intro s; rfl
  | cons o ops ih => intro s; simp only [List.cons_append, run]; rw [ih]

theorem run_recorded (cfg : Cfg) (bank : Bank) (m : Balance) (ops : List Op) :
    Recorded cfg (run cfg (genesis bank m) ops).1 (run cfg (genesis bank m) ops).2 := by
  induction ops using List.reverseRecOn with
  | nil => exact ⟨fun _ => ⟨rfl, rfl⟩, (fun n hn => by cases hn), (fun n hn => by cases hn), fun a e _ => rfl⟩
  | append_singleton ops op ih =>
    rw [run_snoc]
    exact ih.step (run_times cfg ops _ (genesis_times cfg bank m)) op

/-! ### The era of a report -/

theorem find_reverse (l : List (Nat × Nat)) (p : Nat × Nat → Bool) : l.reverse.find? p = (l.filter p).getLast? := by
  rw [← List.head?_filter, List.filter_reverse, List.head?_reverse]

theorem eraOf_spec {cfg : Cfg} {s : State} {tr : List (State × Op × Out)} (h : Recorded cfg s tr) {n i j e : Nat}
    (hn : s.active = some n) (hi : ∀ p, (eraStarts tr).getLast? = some p → i = p.2) :
    eraOf s n i j = some e ↔ eraAt (eraStarts tr) j = some e ∧ n ≤ e + cfg.led.bondingDuration := by
  have hr := h.eras n hn
  have hne : eraStarts tr ≠ [] := by intro hc; rw [hc] at hr; simp [List.range_succ] at hr
  obtain ⟨l, x, hx⟩ : ∃ l x, eraStarts tr = l ++ [x] := ⟨_, _, (List.dropLast_concat_getLast hne).symm⟩
  have hs := range_sorted hr
  have hx1 : x.1 = n := by
    rw [hx, List.range_succ, List.map_append] at hr
    have := List.append_inj' hr (by simp)
    simpa using this.2
  have hi := hi x (by rw [hx]; simp)
  unfold eraOf eraAt
  by_cases hij : i ≤ j
  · rw [if_pos hij, hx, List.filter_append, List.filter_cons_of_pos (by simp; omega)]
    simp only [List.filter_nil, List.getLast?_append, List.getLast?_singleton, Option.some_or, Option.map_some, Option.some.injEq]
    omega
  · rw [if_neg hij, find_reverse, h.bonded n hn, List.filter_filter]
    have hw : ∀ p : Nat × Nat, (window cfg n ≤ p.1 ↔ n ≤ p.1 + cfg.led.bondingDuration) := by
      intro p; unfold window; omega
    -- the last of the filtered list
    have key : ∀ m : List (Nat × Nat), m.Pairwise (fun p q => p.1 < q.1) →
        ((m.filter fun p => decide (p.2 ≤ j) && decide (window cfg n ≤ p.1)).getLast?.map Prod.fst = some e ↔
          (m.filter fun p => decide (p.2 ≤ j)).getLast?.map Prod.fst = some e ∧ n ≤ e + cfg.led.bondingDuration) := by
      intro m
      induction m using List.reverseRecOn with
      | nil => intro _; simp
      | append_singleton m y ih =>
        intro hm
        rw [List.pairwise_append] at hm
        rw [List.filter_append, List.filter_append]
        by_cases hy : y.2 ≤ j
        · by_cases hyw : window cfg n ≤ y.1
          · rw [List.filter_cons_of_pos (by simp [hy, hyw]), List.filter_cons_of_pos (by simp [hy])]
            simp only [List.filter_nil, List.getLast?_append, List.getLast?_singleton, Option.some_or, Option.map_some, Option.some.injEq]
            have := (hw y).1 hyw
            constructor
            · rintro rfl; exact ⟨rfl, this⟩
            · exact fun h => h.1
          · rw [List.filter_cons_of_neg (by simp [hyw]), List.filter_cons_of_pos (by simp [hy])]
            have : m.filter (fun p => decide (p.2 ≤ j) && decide (window cfg n ≤ p.1)) = [] := by
              rw [List.filter_eq_nil_iff]
              intro p hp
              have := hm.2.2 p hp y (by simp)
              have : ¬ window cfg n ≤ p.1 := by omega
              simp [this]
            rw [this]
            simp only [List.filter_nil, List.append_nil, List.getLast?_nil, Option.map_none, List.getLast?_append, List.getLast?_singleton, Option.some_or, Option.map_some, Option.some.injEq]
            constructor
            · rintro h; cases h
            · rintro ⟨rfl, h2⟩
              exact absurd ((hw y).2 h2) hyw
        · rw [List.filter_cons_of_neg (by simp [hy]), List.filter_cons_of_neg (by simp [hy])]
          simp only [List.filter_nil, List.append_nil]
          exact ih hm.1
    exact key _ hs

/-- **C97** (a): a report of an offence in session `j` is considered exactly if no election is under way,
the validator is not invulnerable and the era of that session is not older than the bonding duration; it
is then attributed to this era. Otherwise nobody is slashed and nothing is recorded.
`i`: the first session of the active era. -/
theorem C97_era (cfg : Cfg) (bank : Bank) (m : Balance) (ops : List Op) (s : State) (tr : List (State × Op × Out))
    (hr : run cfg (genesis bank m) ops = (s, tr)) (i j : Nat) (a : AccId) (f : Nat) (rs : List AccId)
    (hi : ∀ p, (eraStarts tr).getLast? = some p → i = p.2) :
    (∀ e, (∃ u, (step cfg s (.offence i j a f rs)).2 = .reported e u) ↔
      s.led.closed = true ∧ a ∉ s.invulnerables ∧ eraAt (eraStarts tr) j = some e ∧
        (eraStarts tr).length ≤ e + cfg.led.bondingDuration + 1) ∧
    ((∀ e u, (step cfg s (.offence i j a f rs)).2 ≠ .reported e u) →
      (step cfg s (.offence i j a f rs)).2 = .ignored ∧
      ∃ q, (step cfg s (.offence i j a f rs)).1 = { s with earliest := q }) := by
  have hrec := run_recorded cfg bank m ops
  rw [hr] at hrec
  simp only at hrec
  constructor
  · intro e
    simp only [step, onOffence]
    cases hcl : s.led.closed with
    | false => simp
    | true =>
      simp only [Bool.true_eq_false, if_false, true_and]
      cases hn : s.active with
      | none =>
        simp only [reduceCtorEq, exists_const, false_iff]
        rw [(hrec.none hn).1]
        simp [eraAt]
      | some n =>
        simp only
        have hlen : (eraStarts tr).length = n + 1 := by
          have := congrArg List.length (hrec.eras n hn)
          simpa using this
        have hsp := eraOf_spec hrec (j := j) (e := e) hn hi
        rw [hlen]
        have h7 : n + 1 ≤ e + cfg.led.bondingDuration + 1 ↔ n ≤ e + cfg.led.bondingDuration := by omega
        rw [h7, ← hsp]
        cases he : eraOf s n i j with
        | none => simp
        | some e' =>
          simp only
          by_cases hinv : a ∈ s.invulnerables
          · simp [hinv]
          · rw [if_neg hinv]
            simp only [hinv, not_false_eq_true, true_and, Option.some.injEq]
            split
            · simp
            · simp
  · intro hno
    have hc := onOffence_cases cfg s i j a f rs
    simp only [step] at hno ⊢
    generalize onOffence cfg s i j a f rs = x at hc hno
    cases hc with
    | ignored s' q h1 hq => exact ⟨rfl, q, h1⟩
    | quiet n e hn he hi' hc => exact absurd rfl (hno e none)
    | slashed n e u hn he hi' hc => exact absurd rfl (hno e _)

/-- **C97** (b): a considered report leads to an entry in the queue of slashes exactly if its fraction of
the stake is not negligible and larger than that of every earlier report of the validator for the same era.
The entry names the validator, those who stood behind it, and the reporters. -/
theorem C97_entry (cfg : Cfg) (bank : Bank) (m : Balance) (ops : List Op) (s : State) (tr : List (State × Op × Out))
    (hr : run cfg (genesis bank m) ops = (s, tr)) (i j : Nat) (a : AccId) (f e : Nat) (rs : List AccId)
    (u : Option Unapplied) (hu : (step cfg s (.offence i j a f rs)).2 = .reported e u) :
    (u ≠ none ↔ perbill f (cfg.exposure e a).total ≠ 0 ∧ ∀ g ∈ priorFractions a e tr, g < f) ∧
    (∀ x, u = some x → x.validator = a ∧ x.others = (cfg.exposure e a).others ∧ x.reporters = rs) := by
  have hrec := run_recorded cfg bank m ops
  have ht := run_times cfg ops _ (genesis_times cfg bank m)
  rw [hr] at hrec ht
  simp only at hrec ht
  have hmax : perbill f (cfg.exposure e a).total ≠ 0 → ((priorFractions a e tr).foldl max 0 < f ↔ ∀ g ∈ priorFractions a e tr, g < f) := by
    intro hne
    have hf0 : 0 < f := by
      rcases Nat.eq_zero_or_pos f with rfl | h
      · exact absurd (by simp [perbill, divNearestDown_zero]) hne
      · exact h
    constructor
    · intro h g hg
      have := (foldl_max_ge (priorFractions a e tr) 0).2 g hg
      omega
    · intro h
      clear hu hrec
      generalize priorFractions a e tr = l at h
      induction l using List.reverseRecOn with
      | nil => exact hf0
      | append_singleton l x ih =>
        rw [foldl_max_snoc]
        have h1 := ih (fun g hg => h g (by simp [hg]))
        have h2 := h x (by simp)
        omega
  have hc := onOffence_cases cfg s i j a f rs
  simp only [step] at hu
  generalize onOffence cfg s i j a f rs = x at hc hu
  cases hc with
  | ignored s' q h1 hq => cases hu
  | quiet n e' hn he hi' hc =>
    cases hu
    obtain ⟨i', j', he⟩ := he
    have hb := eraOf_bounds ht hn he
    have hfr := hrec.fraction a e (fun n' hn' => by rw [hn] at hn'; cases hn'; exact hb.1)
    rcases compute_fraction cfg { s with earliest := some (s.earliest.getD n) } a f e (window cfg n) n with ⟨-, -, h2⟩ | ⟨u, h2, -⟩
    · refine ⟨?_, fun x hx => by cases hx⟩
      simp only [ne_eq, not_true_eq_false, false_iff]
      rintro ⟨h3, h4⟩
      rcases h2 with h2 | h2
      · exact h3 h2
      · have := (hmax h3).2 h4
        have h2 : f ≤ ((eraSlashOf s e a).getD (0, 0)).1 := h2
        omega
    · rw [hc] at h2; cases h2
  | slashed n e' u' hn he hi' hc =>
    cases hu
    obtain ⟨i', j', he⟩ := he
    have hb := eraOf_bounds ht hn he
    have hfr := hrec.fraction a e (fun n' hn' => by rw [hn] at hn'; cases hn'; exact hb.1)
    rcases compute_fraction cfg { s with earliest := some (s.earliest.getD n) } a f e (window cfg n) n with ⟨h2, -⟩ | ⟨u, h2, h3, h4, h5, h6, -⟩
    · rw [hc] at h2; cases h2
    · rw [hc] at h2
      cases h2
      refine ⟨?_, ?_⟩
      · simp only [ne_eq, reduceCtorEq, not_false_eq_true, true_iff]
        refine ⟨h5, (hmax h5).1 ?_⟩
        have h6 : ((eraSlashOf s e a).getD (0, 0)).1 < f := h6
        omega
      · rintro x hx
        cases hx
        exact ⟨h3, h4, rfl⟩

theorem run_good (cfg : Cfg) (bank : Bank) (m : Balance) (ops : List Op) (a : AccId)
    (hown : ∀ e b, (cfg.exposure e b).own ≤ (cfg.exposure e b).total)
    (hk : NotKilled a (run cfg (genesis bank m) ops).2) :
    Agree (run cfg (genesis bank m) ops).1 a (offences cfg a (run cfg (genesis bank m) ops).2) := by
  have hg : History cfg (genesis bank m) a [] :=
    ⟨⟨fun sp hsp => by simp [genesis] at hsp, fun _ => ⟨rfl, fun i => by simp [genesis]⟩⟩,
      fun e p v he => by simp [genesis, eraSlashOf] at he⟩
  have hh := run_history hown a ops _ [] (genesis_times cfg bank m) hg hk
  rw [List.nil_append] at hh
  exact hh.agree

/-- The amounts of an entry, if records and reports of the stash agree. -/
theorem entry_amounts {cfg : Cfg} {s : State} {evs : List Offence} {i j : Nat} {a : AccId} {f e : Nat} {rs : List AccId}
    (ht : Times cfg s) (ha : Agree s a evs) {x : Unapplied} (hu : (step cfg s (.offence i j a f rs)).2 = .reported e (some x))
    {before : List Offence} (hb : ∀ sp, s.spans.get a = some sp → ∃ y ∈ sp.iter, y.contains e = true ∧ before = within y evs)
    (hb0 : s.spans.get a = none → before = []) :
    x.own = perbill f (cfg.exposure e a).own - worst before ∧
    x.payout = if worst before ≤ perbill f (cfg.exposure e a).own
      then perbill 500000000 (perbill s.rewardProp (perbill f (cfg.exposure e a).own) - rewards before) else 0 := by
  have hc := onOffence_cases cfg s i j a f rs
  simp only [step] at hu
  generalize onOffence cfg s i j a f rs = z at hc hu
  cases hc with
  | ignored s' q h1 hq => cases hu
  | quiet n e' hn he hi' hc => cases hu
  | slashed n e' u' hn he hi' hc =>
    cases hu
    obtain ⟨i', j', he⟩ := he
    have hbd := eraOf_bounds ht hn he
    simp only
    unfold computeSlash at hc
    simp only at hc
    split at hc
    · cases hc
    split at hc
    · cases hc
    simp only [Option.some.injEq] at hc
    generalize hs1 : ({ s with earliest := some (s.earliest.getD n), eraSlash := s.eraSlash.insert e (((s.eraSlash.get e).getD ∅).insert a (f, perbill f (cfg.exposure e a).own)) } : State) = s1 at hc
    have a1 : Agree s1 a (evs) := by rw [← hs1]; exact ha
    have hsp1 : s1.spans = s.spans := by rw [← hs1]
    have hrp1 : s1.rewardProp = s.rewardProp := by rw [← hs1]
    have a2 : SpOk s1 a (window cfg n) n := by
      intro sp hsp
      rw [hsp1] at hsp
      obtain ⟨h1, m', h2, h3, h4⟩ := ht.spans a sp hsp
      rw [hn] at h2
      cases h2
      exact ⟨h1, h3, h4⟩
    obtain ⟨h1, h2, h3, h4⟩ := fetch_agree a1 (window cfg n)
    obtain ⟨_, g1, g2, g3⟩ := fetchSpans_spOk a2 (window_le cfg n)
    have hrp : (fetchSpans s1 a (window cfg n)).1.rewardProp = s.rewardProp := by
      rw [← hrp1]; unfold fetchSpans; split <;> rfl
    obtain ⟨y, hy⟩ := Spans.eraSpan_cover g1 (Nat.le_trans g2 hbd.1)
    obtain ⟨hy1, hy2⟩ := (Spans.eraSpan_some g1).1 hy
    have hbw : before = within y (evs) := by
      cases hg : s.spans.get a with
      | none =>
        rw [(ha.2 hg).1, hb0 hg]; rfl
      | some sp =>
        obtain ⟨y', k1, k2, k3⟩ := hb sp hg
        have : (fetchSpans s1 a (window cfg n)).2 = sp := by
          unfold fetchSpans; rw [hsp1, hg]
        rw [this] at hy1 g1
        rw [k3, sp.iter_unique g1 k1 hy1 (Or.inl ⟨e, k2, hy2⟩)]
    have hrec : worst before = (((fetchSpans s1 a (window cfg n)).1.records.get (a, y.index)).getD ⟨0, 0⟩).slashed ∧
        rewards before = (((fetchSpans s1 a (window cfg n)).1.records.get (a, y.index)).getD ⟨0, 0⟩).paidOut := by
      rw [h2, hbw]
      rcases Spans.iter_mem g1 hy1 with rfl | ⟨_, l, k1, _⟩
      · rw [within_empty (x := ⟨_, _, none⟩) h1.before, h1.fresh _ (Nat.le_refl _)]
        exact ⟨rfl, rfl⟩
      · obtain ⟨c1, c2, c3⟩ := h1.closed y hy1 l k1
        exact ⟨c2, c3⟩
    rw [hrec.1, hrec.2, ← hc]
    unfold slashSpan
    rw [hy]
    simp only [compareRecord, spanReward, hrp]
    exact ⟨trivial, trivial⟩

/-- **C97** (c): the amounts of the entry. Let `before` be the earlier reports of offences in the same
slashing span. The own stake is slashed by what the fraction exceeds the worst of them; the reporters
are to get half of the reward fraction of the whole slash, less what was already given for the span,
unless an earlier report was worse. -/
theorem C97_amounts (cfg : Cfg) (bank : Bank) (m : Balance) (ops : List Op) (s : State) (tr : List (State × Op × Out))
    (hr : run cfg (genesis bank m) ops = (s, tr)) (i j : Nat) (a : AccId) (f e : Nat) (rs : List AccId)
    (hown : ∀ e b, (cfg.exposure e b).own ≤ (cfg.exposure e b).total) (hk : NotKilled a tr)
    (x : Unapplied) (hu : (step cfg s (.offence i j a f rs)).2 = .reported e (some x)) (before : List Offence)
    (hb : ∀ sp, s.spans.get a = some sp → ∃ y ∈ sp.iter, y.contains e = true ∧ before = within y (offences cfg a tr))
    (hb0 : s.spans.get a = none → before = []) :
    x.own = perbill f (cfg.exposure e a).own - worst before ∧
    x.payout = if worst before ≤ perbill f (cfg.exposure e a).own
      then perbill 500000000 (perbill s.rewardProp (perbill f (cfg.exposure e a).own) - rewards before) else 0 := by
  have ha := run_good cfg bank m ops a hown (by rw [hr]; exact hk)
  have ht := run_times cfg ops _ (genesis_times cfg bank m)
  rw [hr] at ha ht
  exact entry_amounts ht ha hu hb hb0

theorem sortedUnique_iff (l : List Nat) : sortedUnique l = true ↔ l.Pairwise (· < ·) := by
  induction l with
  | nil => simp [sortedUnique]
  | cons x l ih =>
    cases l with
    | nil => simp [sortedUnique]
    | cons y l =>
      simp only [sortedUnique, Bool.and_eq_true, decide_eq_true_eq, ih]
      constructor
      · rintro ⟨h1, h2⟩
        refine List.pairwise_cons.2 ⟨?_, h2⟩
        intro z hz
        rcases List.mem_cons.1 hz with rfl | hz
        · exact h1
        · exact Nat.lt_trans h1 ((List.pairwise_cons.1 h2).1 z hz)
      · intro h
        exact ⟨(List.pairwise_cons.1 h).1 y (by simp), (List.pairwise_cons.1 h).2⟩

/-- **C97** (d): a cancellation succeeds exactly with the right origin and a non-empty, strictly ascending
list of positions in the queue of the era (then C42); otherwise it changes nothing. -/
theorem C97_cancel (cfg : Cfg) (s : State) (originOk : Bool) (e : Nat) (idx : List Nat) :
    ((step cfg s (.cancel originOk e idx)).2 = .done ↔ originOk = true ∧ idx ≠ [] ∧ idx.Pairwise (· < ·) ∧
      ∀ k ∈ idx, k < ((s.unapplied.get e).getD []).length) ∧
    ((step cfg s (.cancel originOk e idx)).2 ≠ .done → (step cfg s (.cancel originOk e idx)).1 = s) := by
  have hlast : idx ≠ [] → idx.Pairwise (· < ·) →
      (idx.getLastD 0 < ((s.unapplied.get e).getD []).length ↔ ∀ k ∈ idx, k < ((s.unapplied.get e).getD []).length) := by
    intro hne hp
    obtain ⟨l, x, hx⟩ : ∃ l x, idx = l ++ [x] := ⟨_, _, (List.dropLast_concat_getLast hne).symm⟩
    subst hx
    rw [List.getLastD_concat]
    rw [List.pairwise_append] at hp
    constructor
    · intro h k hk
      rcases List.mem_append.1 hk with hk | hk
      · exact Nat.lt_trans (hp.2.2 k hk x (by simp)) h
      · rw [List.mem_singleton] at hk; subst hk; exact h
    · intro h; exact h x (by simp)
  constructor
  · simp only [step]
    constructor
    · intro h
      split at h
      · rename_i s' hc
        obtain ⟨h1, h2, h3, h4, -⟩ := cancel_ok hc
        have h3 := (sortedUnique_iff _).1 h3
        exact ⟨h1, h2, h3, (hlast h2 h3).1 h4⟩
      · cases h
    · rintro ⟨h1, h2, h3, h4⟩
      have h4 := (hlast h2 h3).2 h4
      have h3 := (sortedUnique_iff _).2 h3
      have : ∃ s', cancel s originOk e idx = .ok s' := by
        unfold cancel
        rw [h1, h3]
        simp only [Bool.true_eq_false, if_false]
        rw [if_neg h2, if_neg (by omega)]
        exact ⟨_, rfl⟩
      obtain ⟨s', hs'⟩ := this
      rw [hs']
  · simp only [step]
    split
    · intro h; exact absurd rfl h
    · intro _; rfl

/-! ### Removal of a stash -/

/-- Records of the stash belong to its spans. -/
def Kept (recs : FMap (AccId × Nat) Record) (a : AccId) (sp : Spans) : Prop :=
  ∀ i, recs.get (a, i) ≠ none → sp.index - sp.prior.length ≤ i ∧ i ≤ sp.index

def KeptAll (s : State) (a : AccId) : Prop :=
  (∀ sp, s.spans.get a = some sp → Kept s.records a sp) ∧ (s.spans.get a = none → ∀ i, s.records.get (a, i) = none)

theorem prune_kept {s : State} {a : AccId} {sp : Spans} {d : Bool} {w : Nat} (h : Kept s.records a sp)
    (hd : d = false → s.spans.get a = some sp) : KeptAll (dropSpans s a sp d w) a := by
  unfold dropSpans
  split
  · rename_i h0
    refine ⟨fun sp' hsp' => ?_, fun hn => ?_⟩
    · rw [hd h0] at hsp'; cases hsp'; exact h
    · rw [hd h0] at hn; cases hn
  · refine ⟨fun sp' hsp' => ?_, fun hn => ?_⟩
    · simp only [FMap.get_insert_self, Option.some.injEq] at hsp'
      subst hsp'
      intro i hi
      simp only [Spans.prune] at hi ⊢
      cases ho : sp.iter.tail.findIdx? (Span.isOld w) with
      | none =>
        rw [ho] at hi
        exact h i hi
      | some o =>
        rw [ho] at hi
        simp only [Option.map_some] at hi ⊢
        rw [eraseRecords_get] at hi
        simp only [true_and, List.mem_range'_1] at hi
        split at hi
        · exact absurd rfl hi
        · rename_i hno
          have := h i hi
          omega
    · simp only [FMap.get_insert_self] at hn; cases hn

theorem finish_kept {s : State} {a : AccId} {sp : Spans} {d : Bool} {t : Option Nat} {w now : Nat}
    (h : Kept s.records a sp) (hd : d = false → s.spans.get a = some sp) : KeptAll (finish s a sp d t w now) a := by
  unfold finish
  split
  · simp only
    unfold Spans.endSpan
    split
    · exact prune_kept h hd
    · refine prune_kept (s := chillStash s a) (fun i hi => ?_) (fun h => by cases h)
      have := h i hi
      simp only [List.length_cons]
      omega
  · exact prune_kept h hd

theorem fetch_kept {s : State} {a : AccId} {w : Nat} (h : KeptAll s a) :
    Kept (fetchSpans s a w).1.records a (fetchSpans s a w).2 ∧ (fetchSpans s a w).1.spans.get a = some (fetchSpans s a w).2 := by
  unfold fetchSpans
  split
  · rename_i sp hsp; exact ⟨h.1 sp hsp, hsp⟩
  · rename_i hn
    refine ⟨fun i hi => absurd (h.2 hn i) hi, FMap.get_insert_self _ _ _⟩

theorem iterFrom_index : ∀ (l : List Nat) (start index : Nat) (x : Span), x ∈ iterFrom start index l →
    l.length ≤ index → index - l.length ≤ x.index ∧ x.index ≤ index := by
  intro l
  induction l with
  | nil => intro _ _ x hx; cases hx
  | cons y l ih =>
    intro start index x hx hl
    simp only [iterFrom, List.length_cons] at hx hl ⊢
    rcases List.mem_cons.1 hx with rfl | hx
    · simp only; omega
    · have := ih _ _ x hx (by omega)
      omega

theorem iterFrom_indices : ∀ (l : List Nat) (start index i : Nat), l.length ≤ index → index - l.length ≤ i → i < index →
    ∃ x ∈ iterFrom start index l, x.index = i := by
  intro l
  induction l with
  | nil => intro start index i _ h1 h2; simp only [List.length_nil] at h1; omega
  | cons y l ih =>
    intro start index i hl h1 h2
    simp only [iterFrom, List.length_cons] at hl h1 ⊢
    by_cases hi : i = index - 1
    · exact ⟨_, List.mem_cons_self, hi.symm⟩
    · obtain ⟨x, hx, hx'⟩ := ih (start - y) (index - 1) i (by omega) (by omega) (by omega)
      exact ⟨x, List.mem_cons_of_mem _ hx, hx'⟩

theorem compute_kept {cfg : Cfg} {s : State} {a : AccId} {f e w now : Nat} (h : KeptAll s a)
    (hs : SpOk s a w now) (hw : w ≤ now) : KeptAll (computeSlash cfg s a f e w now).1 a := by
  unfold computeSlash
  simp only
  split
  · obtain ⟨h1, h2⟩ := fetch_kept (w := w) h
    exact finish_kept h1 (fun _ => h2)
  split
  · exact h
  · generalize hs1 : ({ s with eraSlash := s.eraSlash.insert e (((s.eraSlash.get e).getD ∅).insert a (f, perbill f (cfg.exposure e a).own)) } : State) = s1
    have a1 : KeptAll s1 a := by rw [← hs1]; exact h
    have a2 : SpOk s1 a w now := by rw [← hs1]; exact hs
    obtain ⟨h1, h2⟩ := fetch_kept (w := w) a1
    obtain ⟨_, g1, g2, g3⟩ := fetchSpans_spOk a2 hw
    unfold slashSpan
    split
    · exact prune_kept h1 (fun _ => h2)
    · rename_i x hx
      obtain ⟨hx1, -⟩ := (Spans.eraSpan_some g1).1 hx
      have hxi : (fetchSpans s1 a w).2.index - (fetchSpans s1 a w).2.prior.length ≤ x.index ∧ x.index ≤ (fetchSpans s1 a w).2.index := by
        unfold Spans.iter at hx1
        rcases List.mem_cons.1 hx1 with rfl | hx1
        · simp only; omega
        · exact iterFrom_index _ _ _ x hx1 g1.len
      simp only
      generalize hc : compareRecord (fetchSpans s1 a w).1.rewardProp (perbill f (cfg.exposure e a).own)
        (((fetchSpans s1 a w).1.records.get (a, x.index)).getD ⟨0, 0⟩) = c
      have hown : c.changed = false → ¬ 0 < c.own := by
        rw [← hc]
        intro h0
        simp only [compareRecord, Bool.or_eq_false_iff, decide_eq_false_iff_not] at h0 ⊢
        omega
      have hk : ∀ sp1 : Spans, sp1.index = (fetchSpans s1 a w).2.index → sp1.prior = (fetchSpans s1 a w).2.prior →
          Kept (if c.changed = true then { (fetchSpans s1 a w).1 with records := (fetchSpans s1 a w).1.records.insert (a, x.index) c.record } else (fetchSpans s1 a w).1).records a sp1 := by
        intro sp1 e1 e2 i hi
        rw [e1, e2]
        split at hi
        · simp only at hi
          by_cases hix : i = x.index
          · subst hix; exact hxi
          · rw [FMap.get_insert_ne _ _ (fun h => hix (Prod.mk.inj h).2)] at hi
            exact h1 i hi
        · exact h1 i hi
      refine finish_kept (hk _ ?_ ?_) ?_
      · split <;> rfl
      · split <;> rfl
      · intro hd
        rw [if_neg (hown hd), hd]
        exact h2

theorem KeptAll.congr {s s' : State} {a : AccId} (h : KeptAll s a) (h1 : s'.spans.get a = s.spans.get a)
    (h2 : ∀ i, s'.records.get (a, i) = s.records.get (a, i)) : KeptAll s' a := by
  refine ⟨fun sp hsp i hi => ?_, fun hn i => ?_⟩
  · rw [h1] at hsp; rw [h2] at hi; exact h.1 sp hsp i hi
  · rw [h1] at hn; rw [h2]; exact h.2 hn i

theorem clear_all {s : State} {a : AccId} (h : KeptAll s a) (hok : ∀ sp, s.spans.get a = some sp → sp.Ok) :
    (clearStash s a).spans.get a = none ∧ ∀ i, (clearStash s a).records.get (a, i) = none := by
  unfold clearStash
  split
  · rename_i hn; exact ⟨hn, h.2 hn⟩
  · rename_i sp hsp
    refine ⟨FMap.get_erase_self _ _, fun i => ?_⟩
    simp only
    rw [eraseRecords_get]
    split
    · rfl
    · rename_i hno
      apply Classical.byContradiction
      intro hne
      have hb := h.1 sp hsp i hne
      apply hno
      refine ⟨rfl, ?_⟩
      rw [List.mem_map]
      unfold Spans.iter
      by_cases hi : i = sp.index
      · exact ⟨_, List.mem_cons_self, hi.symm⟩
      · obtain ⟨x, hx, hx'⟩ := iterFrom_indices sp.prior sp.lastStart sp.index i (hok sp hsp).len hb.1 (by omega)
        exact ⟨x, List.mem_cons_of_mem _ hx, hx'⟩

theorem step_kept {cfg : Cfg} {s : State} (ht : Times cfg s) (h : ∀ a, KeptAll s a) (op : Op) (a : AccId) :
    KeptAll (step cfg s op).1 a := by
  cases op with
  | ledger op n =>
    simp only [step, ledgerCall]
    split
    · exact (h a).congr rfl (fun _ => rfl)
    · rename_i b hb
      generalize hs1 : ({ s with led := (Ledger.step cfg.led s.led (withSpans (spansOk s n (target s.led op)) op)).1 } : State) = s1
      have hk1 : KeptAll s1 a := by rw [← hs1]; exact (h a).congr rfl (fun _ => rfl)
      by_cases hab : a = b
      · subst hab
        obtain ⟨k1, k2⟩ := clear_all hk1 (fun sp hsp => (ht.spans a sp (by rw [← hs1] at hsp; exact hsp)).1)
        exact ⟨(fun sp hsp => by rw [k1] at hsp; cases hsp), fun _ => k2⟩
      · obtain ⟨e1, e2, e3, e4, e5, e6, e7, e8⟩ := clearStash_fields s1 b
        exact hk1.congr (e7 a hab) (fun i => e8 a i hab)
  | cancel k e idx =>
    simp only [step]
    split
    · rename_i s' hc
      obtain ⟨_, _, _, _, rfl⟩ := cancel_ok hc
      exact h a
    · exact h a
  | setInvulnerables l => exact h a
  | setRewardProp p => exact h a
  | startEra j =>
    obtain ⟨applied, h1, hs⟩ := startEra_spec ht j
    exact (h a).congr (by simp only [step]; rw [hs.spans]) (fun i => by simp only [step]; rw [hs.records])
  | offence i j b f r =>
    have hc := onOffence_cases cfg s i j b f r
    simp only [step]
    generalize onOffence cfg s i j b f r = x at hc
    have hspok : ∀ n, s.active = some n → ∀ a, SpOk s a (window cfg n) n := by
      intro n hn a sp hsp
      obtain ⟨h1, m, h2, h3, h4⟩ := ht.spans a sp hsp
      rw [hn] at h2
      cases h2
      exact ⟨h1, h3, h4⟩
    have key : ∀ n e, s.active = some n →
        KeptAll (computeSlash cfg { s with earliest := some (s.earliest.getD n) } b f e (window cfg n) n).1 a := by
      intro n e hn
      by_cases hba : a = b
      · subst hba
        exact compute_kept (s := { s with earliest := some (s.earliest.getD n) }) (h a) (hspok n hn a) (window_le cfg n)
      · have hf := computeSlash_frame cfg { s with earliest := some (s.earliest.getD n) } b f e (window cfg n) n
        exact (h a).congr (hf.spans a hba) (fun i => hf.records a i hba)
    cases hc with
    | ignored s' q h1 hq => subst h1; exact h a
    | quiet n e hn he hi hc => exact key n e hn
    | slashed n e u hn he hi hc =>
      obtain ⟨e1, e2, e3, e4, e5, e6, e7⟩ := enqueue_fields cfg
        (computeSlash cfg { s with earliest := some (s.earliest.getD n) } b f e (window cfg n) n).1 n { u with reporters := r }
      exact (key n e hn).congr (by simp only; rw [e3]) (fun i => by simp only; rw [e4])

theorem run_kept (cfg : Cfg) (bank : Bank) (m : Balance) (ops : List Op) (a : AccId) :
    KeptAll (run cfg (genesis bank m) ops).1 a := by
  induction ops using List.reverseRecOn generalizing a with
  | nil => exact ⟨(fun sp hsp => by simp [run, genesis] at hsp), (fun _ i => by simp [run, genesis])⟩
  | append_singleton ops op ih =>
    rw [run_snoc]
    exact step_kept (run_times cfg ops _ (genesis_times cfg bank m)) ih op a

theorem iterFrom_length : ∀ (l : List Nat) (start index : Nat), (iterFrom start index l).length = l.length := by
  intro l
  induction l with
  | nil => intro _ _; rfl
  | cons y l ih => intro _ _; simp [iterFrom, ih]

theorem kill_false (s : Ledger.State) (a : AccId) : ∃ e, Ledger.killStash s a false = .error e := by
  unfold Ledger.killStash
  split
  · exact ⟨_, rfl⟩
  · exact ⟨_, rfl⟩

/-- A stash is only removed if enough spans were named. -/
theorem killed_spans {cfg : Ledger.Cfg} {s : State} {op : Ledger.Op} {n : Nat} {a : AccId}
    (h : killed s.led (Ledger.step cfg s.led (withSpans (spansOk s n (target s.led op)) op)).1
      (withSpans (spansOk s n (target s.led op)) op) = some a) :
    target s.led op = some a ∧ spansOk s n (target s.led op) = true := by
  have htt : ∀ k, target s.led (withSpans k op) = target s.led op := by
    intro k; cases op <;> rfl
  unfold killed at h
  rw [htt] at h
  cases ht : target s.led op with
  | none => rw [ht] at h; cases h
  | some b =>
    rw [ht] at h
    simp only at h
    split at h
    · rename_i hc
      cases h
      refine ⟨rfl, ?_⟩
      cases hk : spansOk s n (some a) with
      | true => rfl
      | false =>
        exfalso
        rw [hk] at hc
        have hsame : (Ledger.step cfg s.led (withSpans false op)).1.bonded = s.led.bonded := by
          unfold Ledger.step
          cases hb : Ledger.body cfg s.led (withSpans false op) with
          | error e => rfl
          | ok r =>
            simp only
            cases op <;> simp only [target, reduceCtorEq] at ht
            case withdraw c k =>
              simp only [withSpans, Ledger.body, Ledger.withdraw] at hb
              split at hb
              · cases hb
              split at hb
              · cases hb
              rename_i l0 _
              split at hb
              · obtain ⟨e, he⟩ := kill_false s.led l0.stash
                rw [he] at hb
                cases hb
              · cases hb
                simp only [Ledger.updateLedger, Ledger.setLock]
                split <;> rfl
            case forceUnstake rt b k =>
              simp only [withSpans, Ledger.body, Ledger.forceUnstake] at hb
              obtain ⟨e, he⟩ := kill_false s.led b
              rw [he] at hb
              split at hb <;> cases hb
            case reap b k =>
              simp only [withSpans, Ledger.body, Ledger.reap] at hb
              obtain ⟨e, he⟩ := kill_false s.led b
              rw [he] at hb
              split at hb <;> cases hb
        rw [hsame] at hc
        rw [hc.1] at hc
        cases hc.2
    · cases h

/-- **C97** (e): when a stash is removed, its spans and all records of its slashes are removed with it, those
of others are kept; a stash with more spans than the caller names is not removed. -/
theorem C97_removed (cfg : Cfg) (bank : Bank) (m : Balance) (ops : List Op) (op : Ledger.Op) (n : Nat) (o : Ledger.Out)
    (k : Option AccId) (s s' : State) (hs : s = (run cfg (genesis bank m) ops).1)
    (h : step cfg s (.ledger op n) = (s', .ledger o k)) :
    (∀ a, k = some a → s'.spans.get a = none ∧ (∀ i, s'.records.get (a, i) = none) ∧
      ∀ sp, s.spans.get a = some sp → sp.prior.length + 1 ≤ n) ∧
    (∀ b, k ≠ some b → s'.spans.get b = s.spans.get b ∧ ∀ i, s'.records.get (b, i) = s.records.get (b, i)) := by
  subst hs
  have ht := run_times cfg ops _ (genesis_times cfg bank m)
  have hk := run_kept cfg bank m ops
  generalize (run cfg (genesis bank m) ops).1 = s at *
  simp only [step, ledgerCall, Prod.mk.injEq, Out.ledger.injEq] at h
  obtain ⟨h1, h2, h3⟩ := h
  generalize hs1 : ({ s with led := (Ledger.step cfg.led s.led (withSpans (spansOk s n (target s.led op)) op)).1 } : State) = s1 at h1
  have e1 : s1.spans = s.spans := by rw [← hs1]
  have e2 : s1.records = s.records := by rw [← hs1]
  rw [h3] at h1
  cases k with
  | none =>
    simp only at h1
    subst h1
    exact ⟨(fun a ha => by cases ha), fun b _ => ⟨by rw [e1], fun i => by rw [e2]⟩⟩
  | some a =>
    simp only at h1
    subst h1
    refine ⟨?_, ?_⟩
    · rintro a' ha
      cases ha
      have hk1 : KeptAll s1 a := (hk a).congr (by rw [e1]) (fun i => by rw [e2])
      obtain ⟨k1, k2⟩ := clear_all hk1 (fun sp hsp => (ht.spans a sp (by rw [e1] at hsp; exact hsp)).1)
      refine ⟨k1, k2, fun sp hsp => ?_⟩
      obtain ⟨g1, g2⟩ := killed_spans h3
      rw [g1] at g2
      simp only [spansOk, hsp, decide_eq_true_eq, Spans.iter, List.length_cons, iterFrom_length] at g2
      exact g2
    · intro b hb
      obtain ⟨f1, f2, f3, f4, f5, f6, f7, f8⟩ := clearStash_fields s1 a
      have hba : b ≠ a := fun h => hb (by rw [h])
      exact ⟨by rw [f7 b hba, e1], fun i => by rw [f8 b i hba, e2]⟩

/-- Example: reports for the active era, an older one and one outside the bonding duration; amounts in one
span with a reward fraction of 20%; cancellation. -/
example :
    let ops : List Op := [.setRewardProp 200000000, .ledger (.bond 1 2 500 .staked true) 0, .startEra 0, .startEra 6,
      .offence 6 7 1 100000000 [5]]
    let r := run histCfg (genesis histBank 10) ops
    eraStarts r.2 = [(0, 0), (1, 6)] ∧ eraAt (eraStarts r.2) 3 = some 0 ∧ eraAt (eraStarts r.2) 6 = some 1 ∧
    offences histCfg 1 r.2 = [⟨1, 50, 50, 5⟩] ∧ priorFractions 1 1 r.2 = [100000000] ∧
    offences histCfg 1 (run histCfg (genesis histBank 10) (ops ++ [.offence 6 3 1 400000000 [4]])).2
      = [⟨1, 50, 50, 5⟩, ⟨0, 200, 150, 17⟩] ∧
    (cancel r.1 true 1 [0]).toOption.isSome = true ∧ (cancel r.1 true 1 [0, 0]).toOption.isSome = false := by
  decide +kernel

end Verif.Slashing
