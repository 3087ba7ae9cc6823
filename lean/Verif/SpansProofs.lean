import Verif.Slashing
import Mathlib.Data.List.Chain

/-
Facts on slashing spans (`Verif.Slashing.Spans`).
-/

namespace Verif.Slashing

/-- The numbers of a spans record fit together: closed spans are not empty and start at era zero or later. -/
structure Spans.Ok (sp : Spans) : Prop where
  pos : ∀ l ∈ sp.prior, 0 < l
  sum : sp.prior.sum ≤ sp.lastStart
  len : sp.prior.length ≤ sp.index

/-- First era covered. -/
def Spans.first (sp : Spans) : Nat := sp.lastStart - sp.prior.sum

theorem Spans.new_ok (w : Nat) : (Spans.new w).Ok :=
  ⟨(fun l h => by cases h), Nat.zero_le _, Nat.zero_le _⟩

theorem Spans.new_first (w : Nat) : (Spans.new w).first = w := rfl

theorem Spans.endSpan_ok {sp : Spans} (h : sp.Ok) (now : Nat) : (sp.endSpan now).1.Ok := by
  unfold Spans.endSpan
  split
  · exact h
  · rename_i hn
    have := h.sum
    refine ⟨?_, ?_, ?_⟩
    · intro l hl
      rcases List.mem_cons.1 hl with rfl | hl
      · omega
      · exact h.pos l hl
    · simp only [List.sum_cons]; omega
    · have := h.len; simp only [List.length_cons]; omega

theorem Spans.endSpan_first {sp : Spans} (h : sp.Ok) (now : Nat) : (sp.endSpan now).1.first = sp.first := by
  unfold Spans.endSpan
  split
  · rfl
  · have := h.sum
    simp only [Spans.first, List.sum_cons]
    omega

/-! ### The list of spans -/

/-- A closed span `y` directly precedes `x`. -/
def Before (x y : Span) : Prop :=
  ∃ l, y.length = some l ∧ 0 < l ∧ y.start + l = x.start ∧ y.index + 1 = x.index

theorem iterFrom_chain : ∀ (ls : List Nat) (x : Span), (∀ l ∈ ls, 0 < l) → ls.sum ≤ x.start → ls.length ≤ x.index →
    List.IsChain Before (x :: iterFrom x.start x.index ls) := by
  intro ls
  induction ls with
  | nil => intro x _ _ _; simp [iterFrom]
  | cons l ls ih =>
    intro x hp hs hl
    simp only [List.sum_cons] at hs
    simp only [List.length_cons] at hl
    simp only [iterFrom]
    have h1 := ih ⟨x.index - 1, x.start - l, some l⟩ (fun l' h => hp l' (List.mem_cons_of_mem _ h)) (by simp only; omega)
      (by simp only; omega)
    refine List.IsChain.cons_cons ⟨l, rfl, hp l List.mem_cons_self, ?_, ?_⟩ h1
    · simp only; omega
    · simp only; omega

theorem Spans.iter_chain {sp : Spans} (h : sp.Ok) : List.IsChain Before sp.iter :=
  iterFrom_chain sp.prior ⟨sp.index, sp.lastStart, none⟩ h.pos h.sum h.len

/-- Members of the closed spans: bounds of their eras and indices. -/
theorem iterFrom_mem : ∀ (ls : List Nat) (st ix : Nat), (∀ l ∈ ls, 0 < l) → ls.sum ≤ st → ls.length ≤ ix →
    ∀ x ∈ iterFrom st ix ls, ∃ l, x.length = some l ∧ 0 < l ∧ x.start + l ≤ st ∧ st - ls.sum ≤ x.start ∧
      x.index < ix ∧ ix - ls.length ≤ x.index := by
  intro ls
  induction ls with
  | nil => intro st ix _ _ _ x hx; cases hx
  | cons l ls ih =>
    intro st ix hp hs hl x hx
    simp only [List.sum_cons] at hs ⊢
    simp only [List.length_cons] at hl ⊢
    have h0 := hp l List.mem_cons_self
    rcases List.mem_cons.1 hx with rfl | hx
    · exact ⟨l, rfl, h0, by simp only; omega, by simp only; omega, by simp only; omega, by simp only; omega⟩
    · obtain ⟨l', g1, g2, g3, g4, g5, g6⟩ := ih (st - l) (ix - 1) (fun l' h => hp l' (List.mem_cons_of_mem _ h)) (by omega)
        (by omega) x hx
      exact ⟨l', g1, g2, by omega, by omega, by omega, by omega⟩

theorem Span.contains_iff (x : Span) (e : Nat) :
    x.contains e = true ↔ x.start ≤ e ∧ ∀ l, x.length = some l → e < x.start + l := by
  unfold Span.contains
  cases hl : x.length with
  | none => simp
  | some l => simp

/-- Eras before the later span are covered exactly from the first on. -/
theorem iterFrom_cover : ∀ (ls : List Nat) (st ix : Nat), (∀ l ∈ ls, 0 < l) → ls.sum ≤ st → ls.length ≤ ix →
    ∀ e, st - ls.sum ≤ e → e < st → ∃ x ∈ iterFrom st ix ls, x.contains e = true := by
  intro ls
  induction ls with
  | nil => intro st ix _ _ _ e h1 h2; simp at h1; omega
  | cons l ls ih =>
    intro st ix hp hs hl e h1 h2
    simp only [List.sum_cons] at hs h1
    simp only [List.length_cons] at hl
    by_cases he : st - l ≤ e
    · refine ⟨⟨ix - 1, st - l, some l⟩, List.mem_cons_self, ?_⟩
      rw [Span.contains_iff]
      refine ⟨he, fun l' hl' => ?_⟩
      cases hl'
      simp only
      omega
    · obtain ⟨x, hx, hc⟩ := ih (st - l) (ix - 1) (fun l' h => hp l' (List.mem_cons_of_mem _ h)) (by omega) (by omega) e
        (by omega) (by omega)
      exact ⟨x, List.mem_cons_of_mem _ hx, hc⟩

/-- Two closed spans with a common era, or the same index, are the same. -/
theorem iterFrom_unique : ∀ (ls : List Nat) (st ix : Nat), (∀ l ∈ ls, 0 < l) → ls.sum ≤ st → ls.length ≤ ix →
    ∀ x ∈ iterFrom st ix ls, ∀ y ∈ iterFrom st ix ls,
      ((∃ e, x.contains e = true ∧ y.contains e = true) ∨ x.index = y.index) → x = y := by
  intro ls
  induction ls with
  | nil => intro st ix _ _ _ x hx; cases hx
  | cons l ls ih =>
    intro st ix hp hs hl x hx y hy hxy
    simp only [List.sum_cons] at hs
    simp only [List.length_cons] at hl
    have hp' : ∀ l ∈ ls, 0 < l := fun l' h => hp l' (List.mem_cons_of_mem _ h)
    have hm := iterFrom_mem ls (st - l) (ix - 1) hp' (by omega) (by omega)
    have sep : ∀ z ∈ iterFrom (st - l) (ix - 1) ls,
        ¬ ((∃ e, Span.contains ⟨ix - 1, st - l, some l⟩ e = true ∧ z.contains e = true) ∨ ix - 1 = z.index) := by
      intro z hz hzz
      obtain ⟨l', g1, g2, g3, g4, g5, g6⟩ := hm z hz
      rcases hzz with ⟨e, h1, h2⟩ | h1
      · rw [Span.contains_iff] at h1 h2
        have := h2.2 l' g1
        simp only at h1
        omega
      · omega
    rcases List.mem_cons.1 hx with rfl | hx'
    · rcases List.mem_cons.1 hy with rfl | hy'
      · rfl
      · exact absurd hxy (sep y hy')
    · rcases List.mem_cons.1 hy with rfl | hy'
      · refine absurd ?_ (sep x hx')
        rcases hxy with ⟨e, h1, h2⟩ | h1
        · exact Or.inl ⟨e, h2, h1⟩
        · exact Or.inr h1.symm
      · exact ih (st - l) (ix - 1) hp' (by omega) (by omega) x hx' y hy' hxy

theorem Spans.iter_mem {sp : Spans} (h : sp.Ok) {x : Span} (hx : x ∈ sp.iter) :
    x = ⟨sp.index, sp.lastStart, none⟩ ∨
    (x ∈ iterFrom sp.lastStart sp.index sp.prior ∧ ∃ l, x.length = some l ∧ 0 < l ∧ x.start + l ≤ sp.lastStart ∧
      sp.first ≤ x.start ∧ x.index < sp.index ∧ sp.index - sp.prior.length ≤ x.index) := by
  rcases List.mem_cons.1 hx with hx | hx
  · exact Or.inl hx
  · exact Or.inr ⟨hx, iterFrom_mem _ _ _ h.pos h.sum h.len x hx⟩

theorem Spans.iter_unique {sp : Spans} (h : sp.Ok) {x y : Span} (hx : x ∈ sp.iter) (hy : y ∈ sp.iter)
    (hxy : (∃ e, x.contains e = true ∧ y.contains e = true) ∨ x.index = y.index) : x = y := by
  rcases sp.iter_mem h hx with rfl | ⟨hx', l, g1, g2, g3, g4, g5, g6⟩
  · rcases sp.iter_mem h hy with rfl | ⟨hy', l, g1, g2, g3, g4, g5, g6⟩
    · rfl
    · rcases hxy with ⟨e, h1, h2⟩ | h1
      · rw [Span.contains_iff] at h1 h2
        have := h2.2 l g1
        simp only at h1
        omega
      · simp only at h1; omega
  · rcases sp.iter_mem h hy with rfl | ⟨hy', _⟩
    · rcases hxy with ⟨e, h1, h2⟩ | h1
      · rw [Span.contains_iff] at h1 h2
        have := h1.2 l g1
        simp only at h2
        omega
      · simp only at h1; omega
    · exact iterFrom_unique _ _ _ h.pos h.sum h.len x hx' y hy' hxy

theorem Spans.iter_cover {sp : Spans} (h : sp.Ok) (e : Nat) :
    sp.first ≤ e ↔ ∃ x ∈ sp.iter, x.contains e = true := by
  constructor
  · intro he
    by_cases hl : sp.lastStart ≤ e
    · refine ⟨_, List.mem_cons_self, ?_⟩
      rw [Span.contains_iff]
      exact ⟨hl, (fun l h => by cases h)⟩
    · obtain ⟨x, hx, hc⟩ := iterFrom_cover sp.prior sp.lastStart sp.index h.pos h.sum h.len e he (by omega)
      exact ⟨x, List.mem_cons_of_mem _ hx, hc⟩
  · rintro ⟨x, hx, hc⟩
    rw [Span.contains_iff] at hc
    rcases sp.iter_mem h hx with rfl | ⟨_, l, g1, g2, g3, g4, _⟩
    · have : sp.first ≤ sp.lastStart := Nat.sub_le _ _
      simp only at hc
      omega
    · omega

theorem Spans.eraSpan_some {sp : Spans} (h : sp.Ok) {e : Nat} {x : Span} :
    sp.eraSpan e = some x ↔ x ∈ sp.iter ∧ x.contains e = true := by
  constructor
  · intro hx
    exact ⟨List.mem_of_find?_eq_some hx, List.find?_some (p := fun x : Span => x.contains e) hx⟩
  · rintro ⟨h1, h2⟩
    unfold Spans.eraSpan
    cases hf : sp.iter.find? fun x => x.contains e with
    | none => rw [List.find?_eq_none] at hf; exact absurd h2 (hf x h1)
    | some y =>
      rw [sp.iter_unique h h1 (List.mem_of_find?_eq_some hf) (Or.inl ⟨e, h2, List.find?_some (p := fun x : Span => x.contains e) hf⟩)]

theorem Spans.eraSpan_cover {sp : Spans} (h : sp.Ok) {e : Nat} (he : sp.first ≤ e) : ∃ x, sp.eraSpan e = some x := by
  obtain ⟨x, h1, h2⟩ := (sp.iter_cover h e).1 he
  exact ⟨x, (sp.eraSpan_some h).2 ⟨h1, h2⟩⟩

/-! ### Pruning -/

/-- The number of closed spans kept. -/
theorem prune_prior (sp : Spans) (w : Nat) : ∃ k, k ≤ sp.prior.length ∧ (sp.prune w).1.prior = sp.prior.take k ∧
    (sp.prune w).1.index = sp.index ∧ (sp.prune w).1.lastStart = max sp.lastStart w ∧
    ((sp.prune w).2 = none ∧ k = sp.prior.length ∨
      (sp.prune w).2 = some (sp.index - sp.prior.length, sp.index - k)) ∧
    (∀ i (x : Span), (iterFrom sp.lastStart sp.index sp.prior)[i]? = some x → i < k → x.isOld w = false) ∧
    (k < sp.prior.length → ∃ x : Span, (iterFrom sp.lastStart sp.index sp.prior)[k]? = some x ∧ x.isOld w = true) := by
  have hlen : ∀ (ls : List Nat) st ix, (iterFrom st ix ls).length = ls.length := by
    intro ls
    induction ls with
    | nil => intro st ix; rfl
    | cons l ls ih => intro st ix; simp [iterFrom, ih]
  unfold Spans.prune
  simp only
  rw [show sp.iter.tail = iterFrom sp.lastStart sp.index sp.prior from rfl]
  cases ho : (iterFrom sp.lastStart sp.index sp.prior).findIdx? (Span.isOld w) with
  | none =>
    refine ⟨sp.prior.length, Nat.le_refl _, by simp, trivial, trivial, Or.inl ⟨rfl, rfl⟩, ?_, fun h => absurd h (by omega)⟩
    intro i x hx _
    rw [List.findIdx?_eq_none_iff] at ho
    exact ho x (List.mem_of_getElem? hx)
  | some o =>
    rw [List.findIdx?_eq_some_iff_getElem] at ho
    obtain ⟨h1, h2, h3⟩ := ho
    have h1' := h1
    rw [hlen] at h1'
    refine ⟨o, by omega, rfl, trivial, trivial, Or.inr ?_, ?_, ?_⟩
    · simp only [Option.map_some, List.length_take]
      rw [Nat.min_eq_left (by omega)]
    · intro i x hx hi
      obtain ⟨hi', hx'⟩ := List.getElem?_eq_some_iff.1 hx
      have := h3 i hi
      rw [hx'] at this
      simpa using this
    · intro _
      exact ⟨_, List.getElem?_eq_getElem h1, h2⟩

theorem iterFrom_take : ∀ (ls : List Nat) (k st ix : Nat), iterFrom st ix (ls.take k) = (iterFrom st ix ls).take k := by
  intro ls
  induction ls with
  | nil => intro k st ix; simp [iterFrom]
  | cons l ls ih =>
    intro k st ix
    cases k with
    | zero => simp [iterFrom]
    | succ k => simp [iterFrom, ih]

/-- Position of a closed span: its end is the start minus the lengths of the later ones. -/
theorem iterFrom_get : ∀ (ls : List Nat) (st ix i : Nat) (x : Span), (iterFrom st ix ls)[i]? = some x → ls.sum ≤ st →
    ls.length ≤ ix → ∃ l, x.length = some l ∧ x.start + l = st - (ls.take i).sum ∧ x.index = ix - (i + 1) ∧
      x.start = st - (ls.take (i + 1)).sum := by
  intro ls
  induction ls with
  | nil => intro st ix i x h; simp [iterFrom] at h
  | cons l ls ih =>
    intro st ix i x h hs hl
    simp only [List.sum_cons] at hs
    simp only [List.length_cons] at hl
    cases i with
    | zero =>
      simp only [iterFrom, List.getElem?_cons_zero, Option.some.injEq] at h
      subst h
      exact ⟨l, rfl, by simp only [List.take_zero, List.sum_nil]; omega, rfl, by simp⟩
    | succ i =>
      simp only [iterFrom, List.getElem?_cons_succ] at h
      obtain ⟨l', g1, g2, g3, g4⟩ := ih (st - l) (ix - 1) i x h (by omega) (by omega)
      exact ⟨l', g1, by simp only [List.take_succ_cons, List.sum_cons]; omega, by omega,
        by simp only [List.take_succ_cons, List.sum_cons] at g4 ⊢; omega⟩

theorem sum_take_le : ∀ (ls : List Nat) (k : Nat), (ls.take k).sum ≤ ls.sum := by
  intro ls
  induction ls with
  | nil => intro k; simp
  | cons l ls ih =>
    intro k
    cases k with
    | zero => simp
    | succ k => simp only [List.take_succ_cons, List.sum_cons]; have := ih k; omega

theorem Span.isOld_iff {x : Span} {w l : Nat} (h : x.length = some l) : x.isOld w = true ↔ x.start + l ≤ w := by
  unfold Span.isOld
  rw [h]
  simp

/-- What pruning does. -/
structure Pruned (sp sp' : Spans) (w : Nat) : Prop where
  ok : sp'.Ok
  index : sp'.index = sp.index
  lastStart : sp'.lastStart = max sp.lastStart w
  /-- closed spans that end after the window start are kept, the others are removed -/
  keep : ∀ x : Span, ∀ l, x.length = some l → (x ∈ sp'.iter ↔ x ∈ sp.iter ∧ w < x.start + l)
  first : sp'.first ≤ max sp.first w
  first' : sp.first ≤ sp'.first

theorem prune_spec {sp : Spans} (h : sp.Ok) (w : Nat) : Pruned sp (sp.prune w).1 w := by
  obtain ⟨k, hk, h1, h2, h3, h4, h5, h6⟩ := prune_prior sp w
  have hsum := h.sum
  have hlen := h.len
  have htk := sum_take_le sp.prior k
  have hitlen : ∀ (ls : List Nat) st ix, (iterFrom st ix ls).length = ls.length := by
    intro ls
    induction ls with
    | nil => intro st ix; rfl
    | cons l ls ih => intro st ix; simp [iterFrom, ih]
  -- if the ongoing span is cut, nothing else is kept
  have hcut : sp.lastStart < w → k = 0 := by
    intro hw
    by_contra hk0
    have hlt : 0 < (iterFrom sp.lastStart sp.index sp.prior).length := by rw [hitlen]; omega
    have hg := List.getElem?_eq_getElem hlt
    have ho := h5 0 _ hg (by omega)
    obtain ⟨l, g1, g2, _⟩ := iterFrom_get _ _ _ _ _ hg hsum hlen
    have : Span.isOld w (iterFrom sp.lastStart sp.index sp.prior)[0] = true := by
      rw [Span.isOld_iff g1]; simp only [List.take_zero, List.sum_nil] at g2; omega
    rw [this] at ho
    cases ho
  have hiter : iterFrom (sp.prune w).1.lastStart (sp.prune w).1.index (sp.prune w).1.prior =
      (iterFrom sp.lastStart sp.index sp.prior).take k := by
    rw [h1, h2, h3]
    by_cases hw : sp.lastStart < w
    · rw [hcut hw]; simp [iterFrom]
    · rw [Nat.max_eq_left (by omega), iterFrom_take]
  refine ⟨⟨?_, ?_, ?_⟩, h2, h3, ?_, ?_, ?_⟩
  · intro l hl
    rw [h1] at hl
    exact h.pos l (List.mem_of_mem_take hl)
  · rw [h1, h3]; omega
  · rw [h1, h2, List.length_take]; omega
  · intro x l hx
    have hne : ∀ i s, x ≠ ⟨i, s, none⟩ := fun i s e => by rw [e] at hx; cases hx
    have e1 : x ∈ (sp.prune w).1.iter ↔ x ∈ (iterFrom sp.lastStart sp.index sp.prior).take k := by
      unfold Spans.iter
      rw [List.mem_cons, hiter]
      simp [hne]
    have e2 : x ∈ sp.iter ↔ x ∈ iterFrom sp.lastStart sp.index sp.prior := by
      unfold Spans.iter
      rw [List.mem_cons]
      simp [hne]
    rw [e1, e2]
    constructor
    · intro hm
      obtain ⟨i, hi⟩ := List.mem_iff_getElem?.1 hm
      rw [List.getElem?_take] at hi
      split at hi
      · rename_i hik
        refine ⟨List.mem_of_getElem? hi, ?_⟩
        have := h5 i x hi hik
        by_contra hc
        rw [(Span.isOld_iff hx).2 (by omega)] at this
        cases this
      · cases hi
    · rintro ⟨hm, hw⟩
      obtain ⟨i, hi⟩ := List.mem_iff_getElem?.1 hm
      by_cases hik : i < k
      · exact List.mem_iff_getElem?.2 ⟨i, by rw [List.getElem?_take, if_pos hik]; exact hi⟩
      · exfalso
        have hil : i < sp.prior.length := by
          have := (List.getElem?_eq_some_iff.1 hi).1
          rw [hitlen] at this
          exact this
        obtain ⟨y, hy, hyo⟩ := h6 (by omega)
        obtain ⟨ly, a1, a2, a3, a4⟩ := iterFrom_get _ _ _ _ _ hy hsum hlen
        obtain ⟨lx, b1, b2, b3, b4⟩ := iterFrom_get _ _ _ _ _ hi hsum hlen
        rw [Span.isOld_iff a1] at hyo
        rw [hx] at b1
        cases b1
        have : (sp.prior.take k).sum ≤ (sp.prior.take i).sum := by
          have := sum_take_le (sp.prior.take i) k
          rw [List.take_take, Nat.min_eq_left (by omega)] at this
          exact this
        omega
  · unfold Spans.first
    rw [h1, h3]
    by_cases hkl : k < sp.prior.length
    · obtain ⟨y, hy, hyo⟩ := h6 hkl
      obtain ⟨ly, a1, a2, a3, a4⟩ := iterFrom_get _ _ _ _ _ hy hsum hlen
      rw [Span.isOld_iff a1] at hyo
      omega
    · rw [List.take_of_length_le (by omega)]; omega
  · unfold Spans.first
    rw [h1, h3]
    omega

end Verif.Slashing
