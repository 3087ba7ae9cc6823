import Verif.CreditSpec
import Verif.CreditProofs

/-
Correctness of the reward computation of the credit model.
-/

namespace Verif.Credit

/-- Entries before `era` (a prefix of a sorted history). -/
def before (h : List (Nat × Data)) (era : Nat) : List (Nat × Data) :=
  h.takeWhile (fun e => decide (e.1 < era))

theorem split_before (h : List (Nat × Data)) (hs : h.Pairwise (fun x y => x.1 < y.1)) (era : Nat) :
    ∃ B, h = before h era ++ B ∧ (∀ e ∈ before h era, e.1 < era) ∧ (∀ e ∈ B, era ≤ e.1) := by
  refine ⟨h.dropWhile (fun e => decide (e.1 < era)), ?_, ?_, ?_⟩
  · exact (List.takeWhile_append_dropWhile).symm
  · intro e he
    unfold before at he
    have := List.all_takeWhile (p := fun e : Nat × Data => decide (e.1 < era)) (l := h)
    rw [List.all_eq_true] at this
    simpa using this e he
  · intro e he
    have hp : (h.dropWhile (fun e => decide (e.1 < era))).Pairwise (fun x y => x.1 < y.1) :=
      List.Pairwise.sublist (List.dropWhile_sublist _) hs
    cases hd : h.dropWhile (fun e => decide (e.1 < era)) with
    | nil => rw [hd] at he; cases he
    | cons x xs =>
      have hx : ¬ (x.1 < era) := by
        have := List.head?_dropWhile_not (fun e : Nat × Data => decide (e.1 < era)) h
        rw [hd] at this
        simpa using this
      rw [hd] at he hp
      simp only [List.mem_cons] at he
      simp only [List.pairwise_cons] at hp
      rcases he with rfl | he
      · omega
      · have := hp.1 e he; omega

theorem before_length_mono (h : List (Nat × Data)) {e e' : Nat} (he : e ≤ e') :
    (before h e).length ≤ (before h e').length := by
  unfold before
  induction h with
  | nil => simp
  | cons x xs ih =>
    simp only [List.takeWhile_cons]
    by_cases h1 : x.1 < e
    · have h2 : x.1 < e' := by omega
      simp [h1, h2, ih]
    · simp [h1]

theorem advance_eq {h : List (Nat × Data)} (hs : h.Pairwise (fun x y => x.1 < y.1)) {era i : Nat}
    (hi : i ≤ (before h era).length) : advance h era i = (before h era).length := by
  obtain ⟨B, h1, h2, h3⟩ := split_before h hs era
  unfold advance
  generalize before h era = A at *
  subst h1
  rw [List.drop_append_of_le_length hi]
  have : ((A.drop i ++ B).takeWhile (fun e => decide (e.1 < era))) = A.drop i := by
    rw [List.takeWhile_append_of_pos]
    · cases B with
      | nil => simp
      | cons b B =>
        have := h3 b (by simp)
        rw [List.takeWhile_cons_of_neg]
        · simp
        · simp; omega
    · intro e he
      have := h2 e (List.mem_of_mem_drop he)
      simpa using this
  rw [this, List.length_drop]
  omega

theorem pickData_eq {h : List (Nat × Data)} (hs : h.Pairwise (fun x y => x.1 < y.1)) (hne : h ≠ [])
    (era : Nat) : pickData h era (before h era).length = .ok (recordedAt h era) := by
  obtain ⟨B, h1, h2, h3⟩ := split_before h hs era
  unfold recordedAt pickData
  generalize before h era = A at *
  subst h1
  have hfA : A.filter (fun e => decide (e.1 ≤ era)) = A := by
    rw [List.filter_eq_self]
    intro e he
    have := h2 e he
    simp; omega
  rw [List.filter_append, hfA]
  rw [List.pairwise_append] at hs
  cases B with
  | nil =>
    cases A with
    | nil => exact absurd rfl hne
    | cons a A =>
      have h4 := h2 a (by simp)
      simp only [List.append_nil, List.getElem?_cons_zero, List.filter_nil]
      have : ¬ era < a.1 := by omega
      simp only [this, if_false]
      rw [List.getElem?_eq_none (Nat.le_refl _)]
      simp [List.getLast?_eq_getElem?]
  | cons b B =>
    have h4 := h3 b (by simp)
    have hb : ∀ e ∈ B, b.1 < e.1 := by
      have := hs.2.1
      simp only [List.pairwise_cons] at this
      exact this.1
    have hget : (A ++ b :: B)[A.length]? = some b := by simp
    rw [hget]
    have hfB : B.filter (fun e => decide (e.1 ≤ era)) = [] := by
      rw [List.filter_eq_nil_iff]
      intro e he
      have := hb e he
      simp; omega
    by_cases hbe : b.1 = era
    · have hfb : (b :: B).filter (fun e => decide (e.1 ≤ era)) = [b] := by
        rw [List.filter_cons_of_pos (by simp; omega), hfB]
      rw [hfb]
      have h0 : ∃ x, (A ++ b :: B)[0]? = some x ∧ ¬ era < x.1 := by
        cases A with
        | nil => exact ⟨b, by simp, by omega⟩
        | cons a A =>
          have := h2 a (by simp)
          exact ⟨a, by simp, by omega⟩
      obtain ⟨x, hx1, hx2⟩ := h0
      rw [hx1]
      simp [hx2, hbe]
    · have hfb : (b :: B).filter (fun e => decide (e.1 ≤ era)) = [] := by
        rw [List.filter_cons_of_neg (by simp; omega), hfB]
      rw [hfb]
      cases A with
      | nil =>
        have : era < b.1 := by omega
        simp [this]
      | cons a A =>
        have h5 := h2 a (by simp)
        have : ¬ era < a.1 := by omega
        simp only [List.cons_append, List.getElem?_cons_zero, this, if_false, hbe,
          List.length_cons, Nat.add_sub_cancel, List.append_nil]
        have hne0 : ¬ (A.length + 1 = 0) := by omega
        simp only [hne0, if_false]
        have hg : (a :: (A ++ b :: B))[A.length]? = (a :: A).getLast? := by
          rw [List.getLast?_eq_getElem?]
          have : (a :: (A ++ b :: B)) = (a :: A) ++ b :: B := rfl
          rw [this, List.getElem?_append_left (by simp)]
          simp
        rw [hg, List.getLast?_eq_some_getLast (by simp)]
        rfl

/-- Adding one era to the table of counted data. -/
def addEra (cfg : Cfg) (h : List (Nat × Data)) (m : FMap Data Nat) (e : Nat) : FMap Data Nat :=
  match recordedAt h e with
  | none => m
  | some d => countData cfg m d

theorem creditMapLoop_eq (cfg : Cfg) {h : List (Nat × Data)}
    (hs : h.Pairwise (fun x y => x.1 < y.1)) (hne : h ≠ []) (es : List Nat) :
    ∀ (i : Nat) (m : FMap Data Nat), es.Pairwise (· ≤ ·) →
      (∀ e ∈ es, i ≤ (before h e).length) →
      creditMapLoop cfg h es i m = .ok (es.foldl (addEra cfg h) m) := by
  induction es with
  | nil => intro i m _ _; rfl
  | cons e es ih =>
    intro i m hp hi
    simp only [List.pairwise_cons] at hp
    have h1 := advance_eq hs (hi e (by simp))
    simp only [creditMapLoop, h1, pickData_eq hs hne, List.foldl_cons]
    have hnext : ∀ e' ∈ es, (before h e).length ≤ (before h e').length :=
      fun e' he' => before_length_mono h (hp.1 e' he')
    cases hr : recordedAt h e with
    | none => simp only [addEra, hr]; exact ih _ _ hp.2 hnext
    | some d => simp only [addEra, hr]; exact ih _ _ hp.2 hnext

theorem eras_pairwise (a b : Nat) : (eras a b).Pairwise (· < ·) := by
  unfold eras; exact List.pairwise_lt_range'

theorem mem_eras {a b e : Nat} : e ∈ eras a b ↔ a ≤ e ∧ e ≤ b := by
  unfold eras; rw [List.mem_range']; constructor
  · rintro ⟨i, h1, h2⟩; omega
  · rintro ⟨h1, h2⟩; exact ⟨e - a, by omega, by omega⟩

theorem creditMap_eq (cfg : Cfg) {h : List (Nat × Data)}
    (hs : h.Pairwise (fun x y => x.1 < y.1)) (hne : h ≠ []) (a b : Nat) :
    creditMap cfg h a b = .ok ((eras a b).foldl (addEra cfg h) ∅) := by
  unfold creditMap
  exact creditMapLoop_eq cfg hs hne _ 0 ∅
    ((eras_pairwise a b).imp (fun h => Nat.le_of_lt h)) (fun _ _ => Nat.zero_le _)

theorem get_addEra (cfg : Cfg) (h : List (Nat × Data)) (m : FMap Data Nat) (e : Nat) (d : Data) :
    ((addEra cfg h m e).get d).getD 0 =
      (m.get d).getD 0 + if recordedAt h e = some d ∧ cfg.minCredit ≤ d.credit then 1 else 0 := by
  unfold addEra
  cases hr : recordedAt h e with
  | none => simp
  | some x =>
    simp only [countData, passData, decide_eq_true_eq, Option.some.injEq]
    by_cases hp : cfg.minCredit ≤ x.credit
    · simp only [hp, if_true]
      by_cases hx : d = x
      · subst hx
        simp only [true_and, hp, if_true]
        cases hg : m.get d <;> simp [FMap.get_insert_self]
      · have hx' : ¬ (x = d) := fun h => hx h.symm
        simp only [hx', false_and, if_false, Nat.add_zero]
        cases hg : m.get x <;> simp only [FMap.get_insert, hx, if_false]
    · simp only [hp, if_false]
      by_cases hx : x = d
      · subst hx; simp [hp]
      · simp [hx]

theorem get_foldl_addEra (cfg : Cfg) (h : List (Nat × Data)) (es : List Nat) (m : FMap Data Nat)
    (d : Data) :
    ((es.foldl (addEra cfg h) m).get d).getD 0 = (m.get d).getD 0 +
      (es.filter fun e => decide (recordedAt h e = some d ∧ cfg.minCredit ≤ d.credit)).length := by
  induction es generalizing m with
  | nil => simp
  | cons e es ih =>
    simp only [List.foldl_cons, ih, get_addEra, List.filter_cons, decide_eq_true_eq]
    split
    · simp only [List.length_cons]; omega
    · omega

/-- Data that is counted comes from the record of some era. -/
theorem mem_foldl_addEra (cfg : Cfg) (h : List (Nat × Data)) (es : List Nat) (m : FMap Data Nat)
    {d : Data} {n : Nat} (hg : (es.foldl (addEra cfg h) m).get d = some n) :
    (∃ n, m.get d = some n) ∨ ∃ e ∈ es, recordedAt h e = some d ∧ cfg.minCredit ≤ d.credit := by
  induction es generalizing m with
  | nil => exact Or.inl ⟨n, hg⟩
  | cons e es ih =>
    simp only [List.foldl_cons] at hg
    rcases ih _ hg with ⟨k, hk⟩ | ⟨e', he', h2⟩
    · unfold addEra at hk
      cases hr : recordedAt h e with
      | none => rw [hr] at hk; exact Or.inl ⟨k, hk⟩
      | some x =>
        rw [hr] at hk
        simp only [countData, passData, decide_eq_true_eq] at hk
        by_cases hp : cfg.minCredit ≤ x.credit
        · simp only [hp, if_true] at hk
          by_cases hx : d = x
          · subst hx
            exact Or.inr ⟨e, by simp, hr, hp⟩
          · left
            cases hgx : m.get x <;> rw [hgx] at hk <;>
              simp only [FMap.get_insert, hx, if_false] at hk <;> exact ⟨k, hk⟩
        · simp only [hp, if_false] at hk; exact Or.inl ⟨k, hk⟩
    · exact Or.inr ⟨e', List.mem_cons_of_mem _ he', h2⟩

/-- Every era that earns is represented in the table. -/
theorem foldl_addEra_mono (cfg : Cfg) (h : List (Nat × Data)) (es : List Nat) (m : FMap Data Nat)
    {d : Data} (hg : ∃ n, m.get d = some n) : ∃ n, (es.foldl (addEra cfg h) m).get d = some n := by
  induction es generalizing m with
  | nil => exact hg
  | cons e es ih =>
    simp only [List.foldl_cons]
    apply ih
    obtain ⟨n, hn⟩ := hg
    unfold addEra
    cases hr : recordedAt h e with
    | none => exact ⟨n, hn⟩
    | some x =>
      simp only [countData]
      split
      · by_cases hx : d = x
        · subst hx; cases hgx : m.get d <;> simp
        · cases hgx : m.get x <;> simp only [FMap.get_insert, hx, if_false] <;> exact ⟨n, hn⟩
      · exact ⟨n, hn⟩

/-- Value of one era for a reward function on credit data. -/
def eraValue (cfg : Cfg) (h : List (Nat × Data)) (f : Data → Nat) (e : Nat) : Nat :=
  match recordedAt h e with
  | some d => if cfg.minCredit ≤ d.credit then f d else 0
  | none => 0

theorem sum_addEra (cfg : Cfg) (h : List (Nat × Data)) (m : FMap Data Nat) (e : Nat)
    (f : Data → Nat) :
    (addEra cfg h m e).sum (fun d n => f d * n)
      = m.sum (fun d n => f d * n) + eraValue cfg h f e := by
  unfold addEra eraValue
  cases hr : recordedAt h e with
  | none => simp
  | some x =>
    simp only [countData, passData, decide_eq_true_eq]
    split
    · cases hg : m.get x with
      | none =>
        have := FMap.sum_insert m x 1 (fun d n => f d * n)
        rw [FMap.at?_none hg] at this
        simp only at this ⊢
        omega
      | some n =>
        have := FMap.sum_insert m x (n + 1) (fun d n => f d * n)
        rw [FMap.at?_some hg] at this
        simp only [Nat.mul_add, Nat.mul_one] at this ⊢
        omega
    · rfl

theorem sum_foldl_addEra (cfg : Cfg) (h : List (Nat × Data)) (es : List Nat) (m : FMap Data Nat)
    (f : Data → Nat) :
    (es.foldl (addEra cfg h) m).sum (fun d n => f d * n)
      = m.sum (fun d n => f d * n) + (es.map (eraValue cfg h f)).sum := by
  induction es generalizing m with
  | nil => simp
  | cons e es ih =>
    simp only [List.foldl_cons, ih, sum_addEra, List.map_cons, List.sum_cons]
    omega

theorem sumRewards_ok {s : State} {a : AccId} {l : List (Data × Nat)} {r : Balance}
    (h : sumRewards s a l = .ok r) :
    (∀ p ∈ l, ∃ v, dailyOf s a p.1 = .ok v) ∧
    ∀ f : Data → Nat, (∀ p ∈ l, dailyOf s a p.1 = .ok (f p.1)) →
      r = (l.map (fun p => f p.1 * p.2)).sum := by
  induction l generalizing r with
  | nil => cases h; simp
  | cons p l ih =>
    obtain ⟨d, n⟩ := p
    simp only [sumRewards] at h
    cases hd : dailyOf s a d with
    | error e => rw [hd] at h; cases h
    | ok v =>
      rw [hd] at h
      simp only at h
      cases hr : sumRewards s a l with
      | error e => rw [hr] at h; cases h
      | ok t =>
        rw [hr] at h
        cases h
        obtain ⟨h1, h2⟩ := ih hr
        refine ⟨?_, ?_⟩
        · intro p hp
          simp only [List.mem_cons] at hp
          rcases hp with rfl | hp
          · exact ⟨v, hd⟩
          · exact h1 p hp
        · intro f hf
          have h3 := h2 f (fun p hp => hf p (List.mem_cons_of_mem _ hp))
          have h4 := hf (d, n) (by simp)
          rw [hd] at h4
          cases h4
          simp [h3]

/-- Daily reward as a plain number (0 if the computation fails). -/
def dailyVal (s : State) (a : AccId) (d : Data) : Nat :=
  match dailyOf s a d with
  | .ok v => v
  | .error _ => 0

theorem rewardOf_ok {cfg : Cfg} {s : State} {a : AccId} {h : List (Nat × Data)} {x y : Nat}
    {r : Balance} (hs : h.Pairwise (fun x y => x.1 < y.1)) (hne : h ≠ [])
    (hr : rewardOf cfg s a h x y = .ok (some r)) :
    (∀ e ∈ eras x y, ∀ d, recordedAt h e = some d → cfg.minCredit ≤ d.credit →
      dailyOf s a d = .ok (dailyVal s a d)) ∧
    r = ((eras x y).map (eraValue cfg h (dailyVal s a))).sum := by
  unfold rewardOf at hr
  rw [creditMap_eq cfg hs hne] at hr
  simp only at hr
  split at hr
  · cases hr
  obtain ⟨v, h1, h2⟩ := map_ok hr
  cases h2
  obtain ⟨h3, h4⟩ := sumRewards_ok h1
  have h5 : ∀ p ∈ ((eras x y).foldl (addEra cfg h) ∅).entries,
      dailyOf s a p.1 = .ok (dailyVal s a p.1) := by
    intro p hp
    obtain ⟨w, hw⟩ := h3 p hp
    unfold dailyVal
    rw [hw]
  refine ⟨?_, ?_⟩
  · intro e he d hd hm
    have hc := get_foldl_addEra cfg h (eras x y) ∅ d
    have hpos : 0 < (((eras x y)).filter fun e =>
        decide (recordedAt h e = some d ∧ cfg.minCredit ≤ d.credit)).length := by
      apply List.length_pos_of_mem (a := e)
      simp [he, hd, hm]
    cases hg : ((eras x y).foldl (addEra cfg h) ∅).get d with
    | none =>
      rw [hg] at hc
      simp only [FMap.get_empty, Option.getD_none, Nat.zero_add] at hc
      omega
    | some n =>
      exact h5 (d, n) (FMap.lget_mem hg)
  · have := h4 _ h5
    rw [this]
    have h6 := sum_foldl_addEra cfg h (eras x y) ∅ (dailyVal s a)
    simp only [FMap.sum_empty, Nat.zero_add] at h6
    rw [← h6]
    rfl

end Verif.Credit

namespace Verif.Credit

/-! ### What a reward query pays -/

theorem recordedAt_append_single {h : List (Nat × Data)} {era e : Nat} {d : Data} (he : e < era) :
    recordedAt (h ++ [(era, d)]) e = recordedAt h e := by
  unfold recordedAt
  rw [List.filter_append, List.filter_cons_of_neg (by simp; omega)]
  simp

theorem recordedAt_push {h : List (Nat × Data)} {era e : Nat} {d : Data} (he : e < era) :
    recordedAt (pushHistory h era d) e = recordedAt h e := by
  unfold pushHistory
  cases hl : h.getLast? with
  | none => rfl
  | some last =>
    simp only
    have hne : h ≠ [] := by rintro rfl; cases hl
    split
    · rename_i hlast
      rw [recordedAt_append_single he]
      have hsplit : h = h.dropLast ++ [(era, last.2)] := by
        rw [List.getLast?_eq_some_getLast hne] at hl
        cases hl
        rw [← hlast]
        exact (List.dropLast_concat_getLast hne).symm
      rw [hsplit, recordedAt_append_single he]
      simp
    · exact recordedAt_append_single he

theorem periodStart_push {h : List (Nat × Data)} {era : Nat} {d : Data} :
    periodStart (pushHistory h era d) era = periodStart h era := by
  unfold pushHistory
  cases hl : h.getLast? with
  | none => rfl
  | some last =>
    simp only
    cases h with
    | nil => cases hl
    | cons x xs =>
      split
      · rename_i hlast
        cases xs with
        | nil =>
          simp at hl; subst hl
          simp [periodStart, hlast]
        | cons y ys => simp [periodStart]
      · simp [periodStart]

theorem historyOf_writeCore (c : Core) (a : AccId) (d : Data) (era : Nat) :
    historyOf (writeCore c a d era) a =
      if (historyOf c a).isEmpty then historyOf c a else pushHistory (historyOf c a) era d := by
  unfold writeCore
  cases h : (historyOf c a).isEmpty with
  | true => simp only [if_true]; rfl
  | false =>
    simp only [Bool.false_eq_true, if_false]
    simp [historyOf, FMap.get_insert_self]

theorem slashOffline_history {cfg : Cfg} {cur : Nat} {c c' : Core} {a : AccId} {n : Nat} {m : Bool}
    (h : slashOffline cfg cur c a n m = .ok c') (hne : historyOf c' a ≠ []) :
    (∀ e, e < cur → recordedAt (historyOf c' a) e = recordedAt (historyOf c a) e) ∧
    periodStart (historyOf c' a) cur = periodStart (historyOf c a) cur := by
  unfold slashOffline at h
  split at h
  · split at h
    · cases h; exact ⟨fun _ _ => rfl, rfl⟩
    · cases hg : c.userCredit.get a with
      | none =>
        rw [slashCredit_none hg] at h
        split at h
        · cases h; exact absurd (by simp [historyOf]) hne
        · cases h
      | some d =>
        rw [slashCredit_some hg] at h
        cases h
        split at hne
        · exact absurd (by simp [historyOf]) hne
        · rename_i hp
          simp only [hp, if_false]
          rw [historyOf_writeCore] at hne ⊢
          split
          · exact ⟨fun _ _ => rfl, rfl⟩
          · exact ⟨fun e he => recordedAt_push he, periodStart_push⟩
  · cases h; exact ⟨fun _ _ => rfl, rfl⟩

/-- The eras a query runs over. -/
def queryEras (cfg : Cfg) (s : State) (a : AccId) (d : Data) (start stop : Nat) : List Nat :=
  eras start (min stop (periodStart (historyOf s.core a) (currentEra cfg s) + d.rewardEras - 1))

theorem sum_map_filter {α : Type} (l : List α) (p : α → Bool) (f g : α → Nat)
    (h : ∀ x ∈ l, g x = if p x then f x else 0) : (l.map g).sum = ((l.filter p).map f).sum := by
  induction l with
  | nil => rfl
  | cons x xs ih =>
    have h1 := h x (by simp)
    have h2 := ih (fun y hy => h y (by simp [hy]))
    by_cases hp : p x = true
    · simp [List.filter_cons_of_pos hp, h1, hp, h2]
    · simp [List.filter_cons_of_neg hp, h1, hp, h2]

theorem getReward_some {cfg : Cfg} {s : State} {a : AccId} {x y : Nat} {c' : Core} {r : Balance}
    (hi : CoreInv True (currentEra cfg s) s.core ∨ CoreInv False (currentEra cfg s) s.core)
    (h : getReward cfg s a x y = .ok (c', some r)) :
    x ≤ y ∧ y < currentEra cfg s ∧
    ∃ f : Nat → Nat,
      (∀ e ∈ paidEras cfg s a x y, ∃ d, recordedAt (historyOf s.core a) e = some d ∧
        dailyOf s a d = .ok (f e)) ∧
      r = ((paidEras cfg s a x y).map f).sum := by
  have hi : CoreInv False (currentEra cfg s) s.core := by
    rcases hi with hi | hi
    · exact ⟨hi.chron, False.elim, False.elim⟩
    · exact hi
  unfold getReward at h
  simp only at h
  split at h
  · cases h
  rename_i hguard
  refine ⟨by omega, by omega, ?_⟩
  cases hg : s.core.userCredit.get a with
  | none => rw [hg] at h; cases h
  | some d =>
    rw [hg] at h
    simp only at h
    split at h
    · cases h
    have h1 : CoreInv False (currentEra cfg s) (if (historyOf s.core a).isEmpty = true then
        initHistory s.core a d (currentEra cfg s) else s.core) ∧
        (∀ e, e < currentEra cfg s → recordedAt (historyOf (if (historyOf s.core a).isEmpty = true then
          initHistory s.core a d (currentEra cfg s) else s.core) a) e
            = recordedAt (historyOf s.core a) e) ∧
        periodStart (historyOf (if (historyOf s.core a).isEmpty = true then
          initHistory s.core a d (currentEra cfg s) else s.core) a) (currentEra cfg s)
            = periodStart (historyOf s.core a) (currentEra cfg s) := by
      split
      · rename_i hem
        have hnil : historyOf s.core a = [] := by simpa using hem
        have hini : historyOf (initHistory s.core a d (currentEra cfg s)) a
            = [(currentEra cfg s, d)] := by simp [initHistory, historyOf, FMap.get_insert_self]
        refine ⟨initHistory_inv hi hg, ?_, ?_⟩
        · intro e he
          rw [hini, hnil]
          have := recordedAt_append_single (h := []) (d := d) he
          simpa using this
        · rw [hini, hnil]; rfl
      · exact ⟨hi, fun _ _ => rfl, rfl⟩
    generalize (if (historyOf s.core a).isEmpty = true then
        initHistory s.core a d (currentEra cfg s) else s.core) = c1 at h1 h
    obtain ⟨h1, hrec, hps⟩ := h1
    split at h
    · cases h
    · rename_i c2 hso
      have h2 := slashOffline_inv h1 hso
      cases hh : historyOf c2 a with
      | nil => rw [hh] at h; cases h
      | cons first rest =>
        have hhist := slashOffline_history hso (by rw [hh]; simp)
        have hstored : c2.history.get a = some (first :: rest) := by
          have := historyOf_nonempty (c := c2) (a := a) (by rw [hh]; rfl)
          rw [hh] at this; exact this
        have hsort := (h2.chron a _ hstored).1
        have hreward : rewardOf cfg s a (first :: rest) x (min y (first.1 + d.rewardEras - 1))
            = .ok (some r) := by
          rw [hh] at h
          simp only at h
          split at h
          · split at h
            · cases h
            · obtain ⟨v, hv1, hv2⟩ := map_ok h
              cases hv2; exact hv1
          · split at h
            · cases h
            · obtain ⟨v, hv1, hv2⟩ := map_ok h
              cases hv2; exact hv1
        obtain ⟨hd, hsum⟩ := rewardOf_ok hsort (by simp) hreward
        have hfirst : first.1 = periodStart (historyOf s.core a) (currentEra cfg s) := by
          rw [← hps, ← hhist.2, hh]; rfl
        rw [hfirst] at hd hsum
        have hrec' : ∀ e ∈ eras x (min y (periodStart (historyOf s.core a) (currentEra cfg s)
            + d.rewardEras - 1)), recordedAt (first :: rest) e = recordedAt (historyOf s.core a) e := by
          intro e he
          rw [mem_eras] at he
          have hlt : e < currentEra cfg s := by omega
          rw [← hh, hhist.1 e hlt, hrec e hlt]
        refine ⟨fun e => match recordedAt (historyOf s.core a) e with
          | some d => dailyVal s a d | none => 0, ?_, ?_⟩
        · intro e he
          unfold paidEras at he
          rw [hg] at he
          simp only [List.mem_filter] at he
          obtain ⟨he1, he2⟩ := he
          unfold earns at he2
          cases hre : recordedAt (historyOf s.core a) e with
          | none => rw [hre] at he2; cases he2
          | some d' =>
            rw [hre] at he2
            simp only [decide_eq_true_eq] at he2
            refine ⟨d', rfl, ?_⟩
            simp only [hre]
            exact hd e he1 d' (by rw [hrec' e he1, hre]) he2
        · rw [hsum]
          unfold paidEras
          rw [hg]
          simp only
          apply sum_map_filter
          intro e he
          unfold eraValue earns
          rw [hrec' e he]
          cases hre : recordedAt (historyOf s.core a) e with
          | none => simp
          | some d' => simp

end Verif.Credit
