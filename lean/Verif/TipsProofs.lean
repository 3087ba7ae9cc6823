import Verif.Tips
import Verif.BankExact
import Mathlib.Data.List.Perm.Basic
import Mathlib.Data.List.Nodup

/-
Lemmas about the tip lists of pallets/tips.
-/

namespace Verif.Tips

theorem map_ok {ε α β : Type} {f : α → β} {x : Except ε α} {b : β} (h : x.map f = .ok b) :
    ∃ a, x = .ok a ∧ f a = b := by
  cases x with
  | error e => cases h
  | ok a => exact ⟨a, rfl, by cases h; rfl⟩

theorem liftBank_ok {α : Type} {x : Except BankErr α} {a : α} (h : liftBank x = .ok a) : x = .ok a := by
  cases x with
  | error e => cases h
  | ok b => cases h; rfl

theorem step_cases (cfg : Cfg) (s : State) (op : Op) :
    (∃ r, body cfg s op = .ok r ∧ step cfg s op = r) ∨
    (∃ e, body cfg s op = .error e ∧ step cfg s op = (s, .failed e)) := by
  unfold step
  cases h : body cfg s op with
  | ok r => exact Or.inl ⟨r, rfl, rfl⟩
  | error e => exact Or.inr ⟨e, rfl, rfl⟩

/-- Sorted by account, without repetition. -/
def Sorted (l : List (AccId × Nat)) : Prop := l.Pairwise fun x y => x.1 < y.1

theorem Sorted.nodup {l : List (AccId × Nat)} (h : Sorted l) : (l.map Prod.fst).Nodup := by
  unfold List.Nodup
  rw [List.pairwise_map]
  exact h.imp fun hlt => Nat.ne_of_lt hlt

theorem mem_upsert {l : List (AccId × Nat)} {a v : Nat} {e : AccId × Nat} (h : e ∈ upsert l a v) :
    e = (a, v) ∨ e ∈ l := by
  induction l with
  | nil => simpa [upsert] using h
  | cons x t ih =>
    obtain ⟨b, w⟩ := x
    simp only [upsert] at h
    split at h
    · rcases List.mem_cons.1 h with h | h
      · exact Or.inr (by rw [h]; exact List.mem_cons_self)
      · rcases ih h with h | h
        · exact Or.inl h
        · exact Or.inr (List.mem_cons_of_mem _ h)
    split at h
    · rcases List.mem_cons.1 h with h | h
      · exact Or.inl h
      · exact Or.inr (List.mem_cons_of_mem _ h)
    · rcases List.mem_cons.1 h with h | h
      · exact Or.inl h
      · exact Or.inr h

theorem upsert_sorted {l : List (AccId × Nat)} (h : Sorted l) (a v : Nat) : Sorted (upsert l a v) := by
  induction l with
  | nil => exact List.pairwise_singleton _ _
  | cons x t ih =>
    obtain ⟨b, w⟩ := x
    obtain ⟨h1, h2⟩ := List.pairwise_cons.1 h
    simp only [upsert]
    split
    · rename_i hlt
      refine List.pairwise_cons.2 ⟨?_, ih h2⟩
      intro e he
      rcases mem_upsert he with rfl | he
      · exact hlt
      · exact h1 e he
    split
    · rename_i hb
      subst hb
      exact List.pairwise_cons.2 ⟨h1, h2⟩
    · rename_i hlt hne
      refine List.pairwise_cons.2 ⟨?_, h⟩
      intro e he
      rcases List.mem_cons.1 he with rfl | he
      · show a < b; omega
      · have := h1 e he
        show a < e.1
        simp only at this
        omega

theorem lget_none_of_lt {l : List (AccId × Nat)} {a : AccId} (h : ∀ e ∈ l, a < e.1) : FMap.lget l a = none := by
  induction l with
  | nil => rfl
  | cons x t ih =>
    obtain ⟨b, w⟩ := x
    have := h (b, w) List.mem_cons_self
    simp only at this
    simp only [FMap.lget]
    rw [if_neg (by omega)]
    exact ih fun e he => h e (List.mem_cons_of_mem _ he)

theorem lget_upsert {l : List (AccId × Nat)} (h : Sorted l) (a v x : Nat) :
    FMap.lget (upsert l a v) x = if x = a then some v else FMap.lget l x := by
  induction l with
  | nil =>
    simp only [upsert, FMap.lget]
    by_cases hx : x = a
    · subst hx; simp
    · rw [if_neg (Ne.symm hx), if_neg hx]
  | cons y t ih =>
    obtain ⟨b, w⟩ := y
    obtain ⟨h1, h2⟩ := List.pairwise_cons.1 h
    simp only [upsert]
    split
    · rename_i hlt
      simp only [FMap.lget]
      rw [ih h2]
      by_cases hb : b = x
      · rw [if_pos hb, if_pos hb, if_neg (by omega)]
      · rw [if_neg hb, if_neg hb]
    split
    · rename_i hb
      subst hb
      simp only [FMap.lget]
      by_cases hx : x = b
      · subst hx; simp
      · rw [if_neg (Ne.symm hx), if_neg hx, if_neg (Ne.symm hx)]
    · simp only [FMap.lget]
      by_cases hx : x = a
      · subst hx; simp
      · rw [if_neg (Ne.symm hx), if_neg hx]

/-- Effect of the iterator on a sorted member list. -/
theorem seek_spec (ms : List AccId) (hs : ms.Pairwise (· < ·)) (a : AccId) :
    ((seek ms a).1 = true ↔ a ∈ ms) ∧ (seek ms a).2.Pairwise (· < ·) ∧
    ∀ x, a < x → (x ∈ (seek ms a).2 ↔ x ∈ ms) := by
  induction ms with
  | nil => simp [seek]
  | cons m ms ih =>
    obtain ⟨h1, h2⟩ := List.pairwise_cons.1 hs
    simp only [seek]
    split
    · rename_i hlt
      refine ⟨?_, hs, fun x _ => Iff.rfl⟩
      simp only [Bool.false_eq_true, false_iff]
      intro hm
      rcases List.mem_cons.1 hm with rfl | hm
      · omega
      · have := h1 a hm; omega
    split
    · rename_i hlt
      obtain ⟨i1, i2, i3⟩ := ih h2
      refine ⟨?_, i2, ?_⟩
      · rw [i1, List.mem_cons]
        constructor
        · exact Or.inr
        · rintro (rfl | h)
          · omega
          · exact h
      · intro x hx
        rw [i3 x hx, List.mem_cons]
        constructor
        · exact Or.inr
        · rintro (rfl | h)
          · omega
          · exact h
    · rename_i n1 n2
      have : m = a := by omega
      subst this
      refine ⟨by simp, h2, ?_⟩
      intro x hx
      simp only [List.mem_cons]
      constructor
      · exact Or.inr
      · rintro (rfl | h)
        · omega
        · exact h

/-- The two-iterator loop keeps exactly the declarations of members. -/
theorem retain_eq (l : List (AccId × Nat)) : ∀ (ms : List AccId), ms.Pairwise (· < ·) → Sorted l →
    retain ms l = l.filter fun e => decide (e.1 ∈ ms) := by
  induction l with
  | nil => intro ms _ _; simp [retain]
  | cons e es ih =>
    intro ms hs hl
    obtain ⟨h1, h2⟩ := List.pairwise_cons.1 hl
    obtain ⟨i1, i2, i3⟩ := seek_spec ms hs e.1
    have hrest : retain (seek ms e.1).2 es = es.filter fun e => decide (e.1 ∈ ms) := by
      rw [ih _ i2 h2]
      apply List.filter_congr
      intro x hx
      rw [decide_eq_decide]
      exact i3 x.1 (h1 x hx)
    simp only [retain]
    rw [hrest]
    by_cases hm : e.1 ∈ ms
    · rw [if_pos (i1.2 hm), List.filter_cons_of_pos (by simpa using hm)]
    · rw [if_neg (fun h => hm (i1.1 h)), List.filter_cons_of_neg (by simpa using hm)]

theorem filter_sorted {l : List (AccId × Nat)} (h : Sorted l) (p : AccId × Nat → Bool) : Sorted (l.filter p) :=
  List.Pairwise.sublist List.filter_sublist h

theorem retain_sorted {l : List (AccId × Nat)} (h : Sorted l) {ms : List AccId} (hs : ms.Pairwise (· < ·)) :
    Sorted (retain ms l) := by
  rw [retain_eq l ms hs h]; exact filter_sorted h _

theorem lget_filter (l : List (AccId × Nat)) (p : AccId → Bool) (x : AccId) :
    FMap.lget (l.filter fun e => p e.1) x = if p x then FMap.lget l x else none := by
  induction l with
  | nil => simp [FMap.lget]
  | cons e es ih =>
    obtain ⟨b, w⟩ := e
    by_cases hb : p b = true
    · rw [List.filter_cons_of_pos (by simpa using hb)]
      simp only [FMap.lget]
      by_cases hx : b = x
      · subst hx; simp [hb]
      · rw [if_neg hx, if_neg hx, ih]
    · rw [List.filter_cons_of_neg (by simpa using hb), ih]
      simp only [FMap.lget]
      by_cases hx : b = x
      · subst hx; simp [hb]
      · rw [if_neg hx]

theorem lget_retain {l : List (AccId × Nat)} (h : Sorted l) {ms : List AccId} (hs : ms.Pairwise (· < ·))
    (x : AccId) : FMap.lget (retain ms l) x = if x ∈ ms then FMap.lget l x else none := by
  rw [retain_eq l ms hs h]
  have := lget_filter l (fun a => decide (a ∈ ms)) x
  simpa using this

/-- The kept amounts are those declared by the members, up to order. -/
theorem retain_amounts {l : List (AccId × Nat)} (h : Sorted l) {ms : List AccId} (hs : ms.Pairwise (· < ·)) :
    ((retain ms l).map Prod.snd).Perm (ms.filterMap (FMap.lget l)) := by
  have hn1 : (retain ms l).Nodup := List.Nodup.of_map _ (retain_sorted h hs).nodup
  have hms : ms.Nodup := hs.imp fun hlt => Nat.ne_of_lt hlt
  have hn2 : (ms.filterMap fun a => (FMap.lget l a).map fun v => (a, v)).Nodup := by
    apply hms.filterMap
    intro a b c hc hd
    simp only [Option.mem_def, Option.map_eq_some_iff] at hc hd
    obtain ⟨v, _, rfl⟩ := hc
    obtain ⟨w, _, hw⟩ := hd
    exact (congrArg Prod.fst hw).symm
  have hp : (retain ms l).Perm (ms.filterMap fun a => (FMap.lget l a).map fun v => (a, v)) := by
    rw [List.perm_ext_iff_of_nodup hn1 hn2]
    rintro ⟨a, v⟩
    rw [retain_eq l ms hs h, List.mem_filter, List.mem_filterMap]
    simp only [decide_eq_true_eq, Option.map_eq_some_iff, Prod.mk.injEq]
    constructor
    · rintro ⟨h1, h2⟩
      exact ⟨a, h2, v, FMap.lget_of_mem h.nodup h1, rfl, rfl⟩
    · rintro ⟨a', h1, v', h2, rfl, rfl⟩
      exact ⟨FMap.lget_mem h2, h1⟩
  have := hp.map Prod.snd
  rw [List.map_filterMap] at this
  refine this.trans (List.Perm.of_eq ?_)
  congr 1
  funext a
  cases FMap.lget l a <;> rfl

/-! ### Median -/

/-- `m` is a median of `l` (the upper one if there are two): it occurs in `l`, at most half of the
values are smaller and less than half are greater. -/
def IsMedian (m : Nat) (l : List Nat) : Prop :=
  m ∈ l ∧ 2 * l.countP (· < m) ≤ l.length ∧ 2 * l.countP (m < ·) < l.length

theorem IsMedian.perm {m : Nat} {l l' : List Nat} (h : IsMedian m l) (hp : l.Perm l') : IsMedian m l' := by
  obtain ⟨h1, h2, h3⟩ := h
  refine ⟨hp.mem_iff.1 h1, ?_, ?_⟩
  · rw [← hp.countP_eq, ← hp.length_eq]; exact h2
  · rw [← hp.countP_eq, ← hp.length_eq]; exact h3

theorem middle_of_sorted {l : List Nat} (hs : l.Pairwise (· ≤ ·)) {m : Nat} (h : l[l.length / 2]? = some m) :
    IsMedian m l := by
  obtain ⟨hi, hm⟩ := List.getElem?_eq_some_iff.1 h
  have hle : ∀ (i j : Nat) (hi : i < l.length) (hj : j < l.length), i ≤ j → l[i] ≤ l[j] := by
    intro i j hi hj hij
    rcases Nat.lt_or_eq_of_le hij with h | rfl
    · exact List.pairwise_iff_getElem.1 hs i j hi hj h
    · exact Nat.le_refl _
  have hc1 : l.countP (· < m) ≤ l.length / 2 := by
    have h0 : l.countP (· < m) = (l.take (l.length / 2)).countP (· < m) + (l.drop (l.length / 2)).countP (· < m) := by
      rw [← List.countP_append, List.take_append_drop]
    have h1 : (l.drop (l.length / 2)).countP (· < m) = 0 := by
      rw [List.countP_eq_zero]
      intro x hx
      obtain ⟨k, hk, rfl⟩ := List.mem_drop_iff_getElem.1 hx
      have := hle (l.length / 2) (l.length / 2 + k) hi (by omega) (by omega)
      simp only [decide_eq_true_eq, Nat.not_lt]
      omega
    have h2 := List.countP_le_length (p := fun x => decide (x < m)) (l := l.take (l.length / 2))
    rw [List.length_take] at h2
    omega
  have hc2 : l.countP (m < ·) + l.length / 2 + 1 ≤ l.length := by
    have h0 : l.countP (m < ·) = (l.take (l.length / 2 + 1)).countP (m < ·) + (l.drop (l.length / 2 + 1)).countP (m < ·) := by
      rw [← List.countP_append, List.take_append_drop]
    have h1 : (l.take (l.length / 2 + 1)).countP (m < ·) = 0 := by
      rw [List.countP_eq_zero]
      intro x hx
      obtain ⟨k, hk, rfl⟩ := List.mem_take_iff_getElem.1 hx
      have := hle k (l.length / 2) (by omega) hi (by omega)
      simp only [decide_eq_true_eq, Nat.not_lt]
      omega
    have h2 := List.countP_le_length (p := fun x => decide (m < x)) (l := l.drop (l.length / 2 + 1))
    rw [List.length_drop] at h2
    omega
  exact ⟨List.mem_iff_getElem?.2 ⟨_, h⟩, by omega, by omega⟩

theorem middle_median {l : List (AccId × Nat)} {m : Nat} (h : middle l = some m) :
    IsMedian m (l.map Prod.snd) := by
  unfold middle at h
  have hlen : l.length = ((l.map Prod.snd).insertionSort (· ≤ ·)).length := by
    rw [List.length_insertionSort, List.length_map]
  rw [hlen] at h
  exact (middle_of_sorted (List.pairwise_insertionSort (· ≤ ·) _) h).perm (List.perm_insertionSort _ _)

theorem middle_none {l : List (AccId × Nat)} (h : middle l = none) : l = [] := by
  unfold middle at h
  rw [List.getElem?_eq_none_iff, List.length_insertionSort, List.length_map] at h
  cases l with
  | nil => rfl
  | cons x t => simp only [List.length_cons] at h; omega

theorem divNearestDown_pct_le {m p : Nat} (hp : p ≤ 100) : divNearestDown (m * p) 100 ≤ m :=
  divNearestDown_le m p 100 (by decide) hp

end Verif.Tips
