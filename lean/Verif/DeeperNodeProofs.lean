import Verif.DeeperNode
import Mathlib.Data.List.Nodup

/-
Specifications and lemmas for the device registry.
-/

namespace Verif.DeeperNode

/-! ### Specifications -/

/-- What an account has done so far, as far as the directory is concerned: nothing, or a registered
device in a country that is (`true`) or is not offered as server. -/
abbrev Standing := Option (Code × Bool)

/-- Effect of one successful call of account `a` itself. -/
def standingAfter (st : Standing) : Op → Standing
  | .register _ c =>
    match st with
    | none => some (c, false)
    | some (c', serving) => some (c, if c = c' then serving else false)
  | .unregister _ => none
  | .registerServer _ _ => st.map fun p => (p.1, true)
  | .unregisterServer _ => st.map fun p => (p.1, false)
  | _ => st

/-- The account that calls. -/
def Op.caller : Op → Option AccId
  | .register a _ | .unregister a | .registerServer a _ | .updateServer a _ | .unregisterServer a
  | .heartbeat a | .reportProof a _ _ _ | .rewardMapping a _ _ _ | .npowReward a => some a
  | .external _ _ _ _ => none

/-- Standing of `a` after one call. -/
def standingStep (a : AccId) (st : Standing) (e : State × Op × Out) : Standing :=
  match e.2.2 with
  | .failed _ => st
  | _ => if e.2.1.caller = some a then standingAfter st e.2.1 else st

/-- Standing of `a` after a history. -/
def standing (a : AccId) (tr : List (State × Op × Out)) : Standing := tr.foldl (standingStep a) none

/-! ### Sorted lists -/

/-- Strictly increasing. -/
def Sorted (l : List AccId) : Prop := l.Pairwise (· < ·)

theorem split_lt (l : List AccId) (a : AccId) (h : Sorted l) :
    (∀ x ∈ l.takeWhile (fun x => decide (x < a)), x < a) ∧
    (∀ x ∈ l.dropWhile (fun x => decide (x < a)), a ≤ x) := by
  induction l with
  | nil => simp
  | cons y ys ih =>
    unfold Sorted at h
    rw [List.pairwise_cons] at h
    obtain ⟨h1, h2⟩ := h
    by_cases hy : y < a
    · simp only [List.takeWhile_cons, List.dropWhile_cons, hy, decide_true, if_true, List.mem_cons]
      exact ⟨fun x hx => hx.elim (fun e => e ▸ hy) ((ih h2).1 x), (ih h2).2⟩
    · simp only [List.takeWhile_cons, List.dropWhile_cons, hy, decide_false, Bool.false_eq_true,
        if_false, List.not_mem_nil, false_implies, implies_true, true_and, List.mem_cons]
      intro x hx
      rcases hx with rfl | hx
      · omega
      · have := h1 x hx; omega

theorem sorted_insertAt {l : List AccId} {a : AccId} (h : Sorted l) (hn : a ∉ l) :
    Sorted (insertAt l a) := by
  obtain ⟨h1, h2⟩ := split_lt l a h
  have hl : l.takeWhile (fun x => decide (x < a)) ++ l.dropWhile (fun x => decide (x < a)) = l :=
    List.takeWhile_append_dropWhile
  unfold Sorted insertAt at *
  rw [← hl, List.pairwise_append] at h
  rw [List.pairwise_append, List.pairwise_cons]
  refine ⟨h.1, ⟨?_, h.2.1⟩, ?_⟩
  · intro x hx
    have h3 := h2 x hx
    have h4 : x ∈ l := by rw [← hl]; exact List.mem_append_right _ hx
    have : a ≠ x := fun e => hn (e ▸ h4)
    omega
  · intro x hx y hy
    simp only [List.mem_cons] at hy
    rcases hy with rfl | hy
    · exact h1 x hx
    · exact h.2.2 x hx y hy

theorem mem_insertAt {l : List AccId} {a x : AccId} : x ∈ insertAt l a ↔ x = a ∨ x ∈ l := by
  unfold insertAt
  conv => rhs; rw [← List.takeWhile_append_dropWhile (p := fun x => decide (x < a)) (l := l)]
  simp only [List.mem_append, List.mem_cons]
  constructor
  · rintro (h | h | h) <;> simp [h]
  · rintro (h | h | h) <;> simp [h]

theorem removeAt_eq {l : List AccId} {a : AccId} (h : Sorted l) (hm : a ∈ l) :
    l = l.takeWhile (fun x => decide (x < a)) ++ a :: (l.dropWhile (fun x => decide (x < a))).tail := by
  obtain ⟨h1, h2⟩ := split_lt l a h
  have hl : l.takeWhile (fun x => decide (x < a)) ++ l.dropWhile (fun x => decide (x < a)) = l :=
    List.takeWhile_append_dropWhile
  have hm2 : a ∈ l.dropWhile (fun x => decide (x < a)) := by
    rw [← hl, List.mem_append] at hm
    rcases hm with hm | hm
    · have := h1 a hm; omega
    · exact hm
  cases hd : l.dropWhile (fun x => decide (x < a)) with
  | nil => rw [hd] at hm2; cases hm2
  | cons y ys =>
    rw [hd] at hm2 h2 hl
    have hya : y = a := by
      have h3 := h2 y (by simp)
      simp only [List.mem_cons] at hm2
      rcases hm2 with h4 | h4
      · exact h4.symm
      · unfold Sorted at h
        rw [← hl, List.pairwise_append, List.pairwise_cons] at h
        have := h.2.1.1 a h4
        omega
    subst hya
    exact hl.symm

theorem sorted_removeAt {l : List AccId} {a : AccId} (h : Sorted l) (hm : a ∈ l) :
    Sorted (removeAt l a) := by
  have := removeAt_eq h hm
  unfold Sorted removeAt at *
  rw [this] at h
  rw [List.pairwise_append, List.pairwise_cons] at h
  rw [List.pairwise_append]
  exact ⟨h.1, h.2.1.2, fun x hx y hy => h.2.2 x hx y (by simp [hy])⟩

theorem mem_removeAt {l : List AccId} {a x : AccId} (h : Sorted l) (hm : a ∈ l) :
    x ∈ removeAt l a ↔ x ∈ l ∧ x ≠ a := by
  have he := removeAt_eq h hm
  have hs := h
  unfold Sorted at hs
  rw [he, List.pairwise_append, List.pairwise_cons] at hs
  have hx : x ∈ l ↔ x ∈ l.takeWhile (fun x => decide (x < a)) ++
      a :: (l.dropWhile (fun x => decide (x < a))).tail := by rw [← he]
  rw [hx]
  unfold removeAt
  simp only [List.mem_append, List.mem_cons]
  constructor
  · rintro (h1 | h1)
    · refine ⟨Or.inl h1, ?_⟩
      have := hs.2.2 x h1 a (by simp)
      omega
    · refine ⟨Or.inr (Or.inr h1), ?_⟩
      have := hs.2.1.1 x h1
      omega
  · rintro ⟨h1 | h1 | h1, h2⟩
    · exact Or.inl h1
    · exact absurd h1 h2
    · exact Or.inr h1

/-! ### The region table -/

theorem lget_some_mem {l : List (Code × Code)} {c r : Code} (h : FMap.lget l c = some r) :
    (c, r) ∈ l := by
  induction l with
  | nil => cases h
  | cons p ps ih =>
    obtain ⟨k, v⟩ := p
    simp only [FMap.lget] at h
    split at h
    · rename_i hk; cases h; subst hk; simp
    · exact List.mem_cons_of_mem _ (ih h)

theorem region_ne {c : Code} (h : isCode c = true) : region c ≠ region (region c) := by
  have key : ∀ p ∈ regionTable, p.2 ≠ region p.2 := by decide +kernel
  unfold isCode at h
  rw [Option.isSome_iff_exists] at h
  obtain ⟨r, hr⟩ := h
  have h1 := key _ (lget_some_mem hr)
  have h2 : region c = r := by unfold region; rw [hr]; rfl
  rw [h2]
  exact h1

/-! ### List updates -/

theorem mem_countryRemove {s : State} {c c' : Code} {a x : AccId} (h : Sorted (countryList s c)) :
    x ∈ countryList (countryRemove s (countryList s c) a c) c' ↔
      x ∈ countryList s c' ∧ ¬ (c' = c ∧ x = a) := by
  unfold countryRemove found
  split
  · rename_i hm
    have hm : a ∈ countryList s c := by simpa using hm
    by_cases hc : c' = c
    · subst hc
      have : countryList { s with byCountry := s.byCountry.insert c' (removeAt (countryList s c') a) } c'
          = removeAt (countryList s c') a := by simp [countryList]
      rw [this, mem_removeAt h hm]
      simp
    · have : countryList { s with byCountry := s.byCountry.insert c (removeAt (countryList s c) a) } c'
          = countryList s c' := by simp [countryList, FMap.get_insert_ne _ _ hc]
      rw [this]
      simp [hc]
  · rename_i hm
    have hm : a ∉ countryList s c := by simpa using hm
    constructor
    · intro hx
      refine ⟨hx, ?_⟩
      rintro ⟨rfl, rfl⟩
      exact hm hx
    · exact fun hx => hx.1

theorem sorted_countryRemove {s : State} {c c' : Code} {a : AccId} (h : Sorted (countryList s c))
    (h' : Sorted (countryList s c')) :
    Sorted (countryList (countryRemove s (countryList s c) a c) c') := by
  unfold countryRemove found
  split
  · rename_i hm
    have hm : a ∈ countryList s c := by simpa using hm
    by_cases hc : c' = c
    · subst hc
      simpa [countryList] using sorted_removeAt h hm
    · simpa [countryList, FMap.get_insert_ne _ _ hc] using h'
  · exact h'

theorem mem_regionRemove {s : State} {c c' : Code} {a x : AccId} (h : Sorted (regionList s c)) :
    x ∈ regionList (regionRemove s (regionList s c) a c) c' ↔
      x ∈ regionList s c' ∧ ¬ (c' = c ∧ x = a) := by
  unfold regionRemove found
  split
  · rename_i hm
    have hm : a ∈ regionList s c := by simpa using hm
    by_cases hc : c' = c
    · subst hc
      have : regionList { s with byRegion := s.byRegion.insert c' (removeAt (regionList s c') a) } c'
          = removeAt (regionList s c') a := by simp [regionList]
      rw [this, mem_removeAt h hm]
      simp
    · have : regionList { s with byRegion := s.byRegion.insert c (removeAt (regionList s c) a) } c'
          = regionList s c' := by simp [regionList, FMap.get_insert_ne _ _ hc]
      rw [this]
      simp [hc]
  · rename_i hm
    have hm : a ∉ regionList s c := by simpa using hm
    constructor
    · intro hx
      refine ⟨hx, ?_⟩
      rintro ⟨rfl, rfl⟩
      exact hm hx
    · exact fun hx => hx.1

theorem sorted_regionRemove {s : State} {c c' : Code} {a : AccId} (h : Sorted (regionList s c))
    (h' : Sorted (regionList s c')) :
    Sorted (regionList (regionRemove s (regionList s c) a c) c') := by
  unfold regionRemove found
  split
  · rename_i hm
    have hm : a ∈ regionList s c := by simpa using hm
    by_cases hc : c' = c
    · subst hc
      simpa [regionList] using sorted_removeAt h hm
    · simpa [regionList, FMap.get_insert_ne _ _ hc] using h'
  · exact h'

@[simp] theorem countryList_regionRemove (s : State) (l : List AccId) (a : AccId) (r c : Code) :
    countryList (regionRemove s l a r) c = countryList s c := by
  unfold regionRemove; split <;> rfl

@[simp] theorem regionList_countryRemove (s : State) (l : List AccId) (a : AccId) (r c : Code) :
    regionList (countryRemove s l a r) c = regionList s c := by
  unfold countryRemove; split <;> rfl

@[simp] theorem devices_regionRemove (s : State) (l : List AccId) (a : AccId) (r : Code) :
    (regionRemove s l a r).devices = s.devices := by unfold regionRemove; split <;> rfl

@[simp] theorem devices_countryRemove (s : State) (l : List AccId) (a : AccId) (r : Code) :
    (countryRemove s l a r).devices = s.devices := by unfold countryRemove; split <;> rfl

/-! ### Invariant -/

/-- The storage agrees with the standings of the accounts. -/
structure Inv (s : State) (st : AccId → Standing) : Prop where
  dev : ∀ a, (s.devices.get a).map Node.country = (st a).map Prod.fst
  code : ∀ a c b, st a = some (c, b) → isCode c = true
  csort : ∀ c, Sorted (countryList s c)
  rsort : ∀ r, Sorted (regionList s r)
  cmem : ∀ a c, a ∈ countryList s c ↔ st a = some (c, true)
  rmem : ∀ a r, a ∈ regionList s r ↔ ∃ c, st a = some (c, true) ∧ (r = region c ∨ r = region (region c))

/-- Change the standing of one account. -/
def setSt (st : AccId → Standing) (a : AccId) (v : Standing) : AccId → Standing :=
  fun x => if x = a then v else st x

theorem tryRemove_inv {s : State} {st : AccId → Standing} (h : Inv s st) {a : AccId} {node : Node}
    (hd : s.devices.get a = some node) :
    Inv (tryRemove s a) (setSt st a (some (node.country, false))) := by
  have hst : ∃ b, st a = some (node.country, b) := by
    have := h.dev a
    rw [hd] at this
    cases hs : st a with
    | none => rw [hs] at this; cases this
    | some p =>
      rw [hs] at this
      simp only [Option.map_some, Option.some.injEq] at this
      exact ⟨p.2, by rw [this]⟩
  obtain ⟨b, hst⟩ := hst
  have hcode := h.code a _ _ hst
  unfold tryRemove
  rw [hd]
  simp only
  generalize hs1 : countryRemove s (countryList s node.country) a node.country = s1
  generalize hs2 : regionRemove s1 (regionList s1 (region node.country)) a (region node.country) = s2
  generalize hs3 : regionRemove s2 (regionList s2 (region (region node.country))) a
    (region (region node.country)) = s3
  have r1 : ∀ r, regionList s1 r = regionList s r := by intro r; rw [← hs1]; simp
  have r2s : ∀ r, Sorted (regionList s2 r) := by
    intro r; rw [← hs2]; exact sorted_regionRemove (by rw [r1]; exact h.rsort _) (by rw [r1]; exact h.rsort _)
  have c3 : ∀ c, countryList s3 c = countryList s1 c := by
    intro c; rw [← hs3, ← hs2]; simp
  have d3 : s3.devices = s.devices := by rw [← hs3, ← hs2, ← hs1]; simp
  refine ⟨?_, ?_, ?_, ?_, ?_, ?_⟩
  · intro x
    simp only [d3, FMap.get_insert, setSt]
    split
    · rfl
    · exact h.dev x
  · intro x c b' hx
    simp only [setSt] at hx
    split at hx
    · cases hx; exact hcode
    · exact h.code x c b' hx
  · intro c
    show Sorted (countryList s3 c)
    rw [c3, ← hs1]
    exact sorted_countryRemove (h.csort _) (h.csort _)
  · intro r
    show Sorted (regionList s3 r)
    rw [← hs3]
    exact sorted_regionRemove (r2s _) (r2s _)
  · intro x c
    show x ∈ countryList s3 c ↔ _
    rw [c3, ← hs1, mem_countryRemove (h.csort _), h.cmem]
    by_cases hx : x = a
    · subst hx
      simp [setSt, hst]
      intro h1 _; exact h1.symm
    · simp [setSt, hx]
  · intro x r
    show x ∈ regionList s3 r ↔ _
    rw [← hs3, mem_regionRemove (r2s _), ← hs2, mem_regionRemove (by rw [r1]; exact h.rsort _), r1,
      h.rmem]
    by_cases hx : x = a
    · subst hx
      simp only [setSt, hst, and_true, if_true, Option.some.injEq, Prod.mk.injEq, Bool.false_eq_true,
        and_false, false_and, exists_false, iff_false]
      rintro ⟨⟨⟨c, ⟨rfl, _⟩, h1⟩, h2⟩, h3⟩
      exact h1.elim h2 h3
    · simp [setSt, hx]

theorem tryAdd_inv {s : State} {st : AccId → Standing} (h : Inv s st) {a : AccId} {c : Code} {b : Bool}
    (hst : st a = some (c, b)) (n : Nat) : Inv (tryAdd s a n) (setSt st a (some (c, true))) := by
  have hdev : ∃ node, s.devices.get a = some node ∧ node.country = c := by
    have := h.dev a
    rw [hst] at this
    cases hd : s.devices.get a with
    | none => rw [hd] at this; cases this
    | some node => rw [hd] at this; simp at this; exact ⟨node, rfl, this⟩
  obtain ⟨node, hd, hc⟩ := hdev
  subst hc
  have hcode := h.code a _ _ hst
  cases b with
  | true =>
    have hm : a ∈ countryList s node.country := (h.cmem a _).2 hst
    have : tryAdd s a n = s := by
      unfold tryAdd countryInsert found
      simp [hd, hm]
    rw [this]
    have : setSt st a (some (node.country, true)) = st := by
      funext x
      unfold setSt
      split
      · rename_i hx; rw [hx, hst]
      · rfl
    rw [this]
    exact h
  | false =>
    have hm : a ∉ countryList s node.country := by
      intro hm; rw [h.cmem, hst] at hm; cases hm
    have hr : ∀ r, a ∉ regionList s r := by
      intro r hm
      rw [h.rmem] at hm
      obtain ⟨c, hc, _⟩ := hm
      rw [hst] at hc; cases hc
    have hne := region_ne hcode
    have heq : tryAdd s a n =
        { s with
          byCountry := s.byCountry.insert node.country (insertAt (countryList s node.country) a)
          byRegion := (s.byRegion.insert (region node.country)
            (insertAt (regionList s (region node.country)) a)).insert (region (region node.country))
            (insertAt (regionList s (region (region node.country))) a)
          devices := s.devices.insert a { node with expire := s.block + n } } := by
      have h1 : (countryList s node.country).contains a = false := by simpa using hm
      have h2 : ∀ r, (regionList s r).contains a = false := fun r => by simpa using hr r
      unfold tryAdd countryInsert regionInsert found
      simp only [hd, Option.getD_some, h1, Bool.false_eq_true, if_false, Bool.not_true]
      have e1 : ∀ x, regionList { s with byCountry := x } = regionList s := fun _ => rfl
      rw [e1]
      simp only [h2, Bool.false_eq_true, if_false, Bool.not_true]
      have e2 : ∀ x l, regionList { s with byCountry := x, byRegion := s.byRegion.insert (region node.country) l }
          (region (region node.country)) = regionList s (region (region node.country)) := by
        intro x l
        simp only [regionList, FMap.get_insert_ne _ _ (Ne.symm hne)]
      rw [e2]
      simp only [h2, Bool.false_eq_true, if_false, Bool.not_true]
    rw [heq]
    have hcl : ∀ c', countryList { s with
          byCountry := s.byCountry.insert node.country (insertAt (countryList s node.country) a)
          byRegion := (s.byRegion.insert (region node.country)
            (insertAt (regionList s (region node.country)) a)).insert (region (region node.country))
            (insertAt (regionList s (region (region node.country))) a)
          devices := s.devices.insert a { node with expire := s.block + n } } c'
        = if c' = node.country then insertAt (countryList s node.country) a else countryList s c' := by
      intro c'
      simp only [countryList, FMap.get_insert]
      split <;> rfl
    have hrl : ∀ r, regionList { s with
          byCountry := s.byCountry.insert node.country (insertAt (countryList s node.country) a)
          byRegion := (s.byRegion.insert (region node.country)
            (insertAt (regionList s (region node.country)) a)).insert (region (region node.country))
            (insertAt (regionList s (region (region node.country))) a)
          devices := s.devices.insert a { node with expire := s.block + n } } r
        = if r = region node.country ∨ r = region (region node.country)
          then insertAt (regionList s r) a else regionList s r := by
      intro r
      simp only [regionList, FMap.get_insert]
      by_cases h1 : r = region (region node.country)
      · simp [h1]
      · by_cases h2 : r = region node.country
        · subst h2; simp [h1]
        · simp [h1, h2]
    refine ⟨?_, ?_, ?_, ?_, ?_, ?_⟩
    · intro x
      simp only [FMap.get_insert, setSt]
      split
      · rfl
      · exact h.dev x
    · intro x c b' hx
      simp only [setSt] at hx
      split at hx
      · cases hx; exact hcode
      · exact h.code x c b' hx
    · intro c'
      rw [hcl]
      split
      · exact sorted_insertAt (h.csort _) hm
      · exact h.csort _
    · intro r
      rw [hrl]
      split
      · exact sorted_insertAt (h.rsort _) (hr _)
      · exact h.rsort _
    · intro x c'
      rw [hcl]
      by_cases hc' : c' = node.country
      · subst hc'
        rw [if_pos rfl, mem_insertAt, h.cmem]
        by_cases hx : x = a
        · simp [setSt, hx]
        · simp [setSt, hx]
      · rw [if_neg hc', h.cmem]
        by_cases hx : x = a
        · subst hx
          simp only [setSt, hst, if_true, Option.some.injEq, Prod.mk.injEq, Bool.false_eq_true, and_false,
            and_true, false_iff]
          exact fun e => hc' e.symm
        · simp [setSt, hx]
    · intro x r
      rw [hrl]
      by_cases hx : x = a
      · subst hx
        simp only [setSt, if_true, Option.some.injEq, Prod.mk.injEq, and_true]
        by_cases h1 : r = region node.country ∨ r = region (region node.country)
        · rw [if_pos h1, mem_insertAt]
          simp only [true_or, true_iff]
          exact ⟨_, rfl, h1⟩
        · rw [if_neg h1]
          constructor
          · intro h2; exact absurd h2 (hr r)
          · rintro ⟨c, rfl, h2⟩; exact absurd h2 h1
      · simp only [setSt, hx, if_false]
        rw [← h.rmem]
        split
        · rw [mem_insertAt]; simp [hx]
        · rfl

theorem Inv.congr {s s' : State} {st : AccId → Standing} (h : Inv s st)
    (hd : ∀ a, (s'.devices.get a).map Node.country = (s.devices.get a).map Node.country)
    (hc : s'.byCountry = s.byCountry) (hr : s'.byRegion = s.byRegion) : Inv s' st := by
  have e1 : ∀ c, countryList s' c = countryList s c := fun c => by simp [countryList, hc]
  have e2 : ∀ c, regionList s' c = regionList s c := fun c => by simp [regionList, hr]
  refine ⟨fun a => by rw [hd, h.dev], h.code, ?_, ?_, ?_, ?_⟩
  · intro c; rw [e1]; exact h.csort c
  · intro c; rw [e2]; exact h.rsort c
  · intro a c; rw [e1]; exact h.cmem a c
  · intro a c; rw [e2]; exact h.rmem a c

theorem map_ok {α β : Type} {x : Except Err α} {f : α → β} {b : β} (h : x.map f = .ok b) :
    ∃ a, x = .ok a ∧ f a = b := by
  cases x with
  | error e => cases h
  | ok a => cases h; exact ⟨a, rfl, rfl⟩

theorem tryRemove_frame (s : State) (a : AccId) :
    ∃ bc br dv, tryRemove s a = { s with byCountry := bc, byRegion := br, devices := dv } := by
  unfold tryRemove
  split
  · exact ⟨_, _, _, rfl⟩
  · simp only [countryRemove, regionRemove]
    split <;> split <;> split <;> exact ⟨_, _, _, rfl⟩

theorem tryAdd_frame (s : State) (a : AccId) (n : Nat) :
    ∃ bc br dv, tryAdd s a n = { s with byCountry := bc, byRegion := br, devices := dv } := by
  have hci : ∀ (s : State) l a c, ∃ bc, (countryInsert s l a c).1 = { s with byCountry := bc } := by
    intro s l a c; unfold countryInsert; split <;> exact ⟨_, rfl⟩
  have hri : ∀ (s : State) l a c, ∃ bc, (regionInsert s l a c).1 = { s with byRegion := bc } := by
    intro s l a c; unfold regionInsert; split <;> exact ⟨_, rfl⟩
  have hcr : ∀ (s : State) l a c, ∃ bc, (countryRemove s l a c) = { s with byCountry := bc } := by
    intro s l a c; unfold countryRemove; split <;> exact ⟨_, rfl⟩
  have hrr : ∀ (s : State) l a c, ∃ bc, (regionRemove s l a c) = { s with byRegion := bc } := by
    intro s l a c; unfold regionRemove; split <;> exact ⟨_, rfl⟩
  unfold tryAdd
  simp only
  split
  · exact ⟨_, _, _, rfl⟩
  split
  · obtain ⟨x1, h1⟩ := hci s (countryList s ((s.devices.get a).getD ⟨[], 0⟩).country) a
      ((s.devices.get a).getD ⟨[], 0⟩).country
    rw [h1]
    obtain ⟨x2, h2⟩ := hcr { s with byCountry := x1 } _ a _
    rw [h2]
    exact ⟨_, _, _, rfl⟩
  split
  · obtain ⟨x1, h1⟩ := hci s (countryList s ((s.devices.get a).getD ⟨[], 0⟩).country) a
      ((s.devices.get a).getD ⟨[], 0⟩).country
    rw [h1]
    obtain ⟨x2, h2⟩ := hri { s with byCountry := x1 } (regionList { s with byCountry := x1 }
      (region ((s.devices.get a).getD ⟨[], 0⟩).country)) a (region ((s.devices.get a).getD ⟨[], 0⟩).country)
    rw [h2]
    obtain ⟨x3, h3⟩ := hcr { s with byCountry := x1, byRegion := x2 } (countryInsert s
      (countryList s ((s.devices.get a).getD ⟨[], 0⟩).country) a
      ((s.devices.get a).getD ⟨[], 0⟩).country).2.1 a ((s.devices.get a).getD ⟨[], 0⟩).country
    rw [h3]
    obtain ⟨x4, h4⟩ := hrr { s with byCountry := x3, byRegion := x2 } (regionInsert
      { s with byCountry := x1 } (regionList { s with byCountry := x1 }
      (region ((s.devices.get a).getD ⟨[], 0⟩).country)) a
      (region ((s.devices.get a).getD ⟨[], 0⟩).country)).2.1 a
      (region ((s.devices.get a).getD ⟨[], 0⟩).country)
    rw [h4]
    exact ⟨_, _, _, rfl⟩
  · obtain ⟨x1, h1⟩ := hci s (countryList s ((s.devices.get a).getD ⟨[], 0⟩).country) a
      ((s.devices.get a).getD ⟨[], 0⟩).country
    rw [h1]
    obtain ⟨x2, h2⟩ := hri { s with byCountry := x1 } (regionList { s with byCountry := x1 }
      (region ((s.devices.get a).getD ⟨[], 0⟩).country)) a (region ((s.devices.get a).getD ⟨[], 0⟩).country)
    rw [h2]
    obtain ⟨x3, h3⟩ := hri { s with byCountry := x1, byRegion := x2 } (regionList
      { s with byCountry := x1, byRegion := x2 } (region (region ((s.devices.get a).getD ⟨[], 0⟩).country))) a
      (region (region ((s.devices.get a).getD ⟨[], 0⟩).country))
    rw [h3]
    exact ⟨_, _, _, rfl⟩

end Verif.DeeperNode
