import Verif.Adsc
import Verif.BankExact
import Mathlib.Data.List.Perm.Basic
import Mathlib.Data.List.Perm.Subperm
import Mathlib.Data.List.Nodup

/-
Lemmas for the ADSC pallet.
-/

namespace Verif.Adsc

open Verif.UserPrivileges (Privilege)
open Verif.Credit (perbillMul)

theorem map_ok {α β : Type} {x : Except Err α} {f : α → β} {b : β} (h : x.map f = .ok b) :
    ∃ a, x = .ok a ∧ f a = b := by
  cases x with
  | error e => cases h
  | ok a => cases h; exact ⟨a, rfl, rfl⟩

theorem liftBank_ok {α : Type} {x : Except BankErr α} {a : α} (h : liftBank x = .ok a) : x = .ok a := by
  cases x with
  | error e => cases h
  | ok b => cases h; rfl

theorem liftAsset_ok {α : Type} {x : Except AssetErr α} {a : α} (h : liftAsset x = .ok a) :
    x = .ok a := by
  cases x with
  | error e => cases h
  | ok b => cases h; rfl

theorem step_cases (cfg : Cfg) (s : State) (op : Op) :
    (∃ r, body cfg s op = .ok r ∧ step cfg s op = r) ∨
    (∃ e, body cfg s op = .error e ∧ step cfg s op = (s, .failed e)) := by
  unfold step
  cases h : body cfg s op with
  | ok r => exact Or.inl ⟨r, rfl, rfl⟩
  | error e => exact Or.inr ⟨e, rfl, rfl⟩

/-! ### Order of the stakers -/

theorem insertByKey_perm (key : AccId → Nat) (e : AccId × Nat) (l : List (AccId × Nat)) :
    (insertByKey key e l).Perm (e :: l) := by
  induction l with
  | nil => exact List.Perm.refl _
  | cons x xs ih =>
    simp only [insertByKey]
    split
    · exact List.Perm.refl _
    · exact (List.Perm.cons x ih).trans (List.Perm.swap e x xs)

theorem sortByKey_perm (key : AccId → Nat) (l : List (AccId × Nat)) : (sortByKey key l).Perm l := by
  induction l with
  | nil => exact List.Perm.refl _
  | cons e es ih => exact (insertByKey_perm key e _).trans (List.Perm.cons e ih)

theorem insertByKey_sorted (key : AccId → Nat) (e : AccId × Nat) (l : List (AccId × Nat))
    (h : l.Pairwise fun x y => key x.1 ≤ key y.1) :
    (insertByKey key e l).Pairwise fun x y => key x.1 ≤ key y.1 := by
  induction l with
  | nil => simp [insertByKey]
  | cons x xs ih =>
    rw [List.pairwise_cons] at h
    simp only [insertByKey]
    split
    · rename_i hlt
      rw [List.pairwise_cons]
      refine ⟨?_, List.pairwise_cons.2 h⟩
      intro y hy
      rw [List.mem_cons] at hy
      rcases hy with rfl | hy
      · omega
      · have := h.1 y hy; omega
    · rename_i hlt
      rw [List.pairwise_cons]
      refine ⟨?_, ih h.2⟩
      intro y hy
      rcases List.mem_cons.1 ((insertByKey_perm key e xs).mem_iff.1 hy) with rfl | hy
      · omega
      · exact h.1 y hy

theorem sortByKey_sorted (key : AccId → Nat) (l : List (AccId × Nat)) :
    (sortByKey key l).Pairwise fun x y => key x.1 ≤ key y.1 := by
  induction l with
  | nil => simp [sortByKey]
  | cons e es ih => exact insertByKey_sorted key e _ ih

/-! ### The loop -/

/-- Treat all stakers of a list. -/
def visitAll (cfg : Cfg) (period : Nat) (c : Scan) (l : List (AccId × Nat)) : Scan :=
  l.foldl (fun c e => visit cfg period c e.1 e.2) c

/-- The loop treats the online stakers of an initial part of the list; if something is left over, the
number for this block is reached. -/
theorem scan_shape (cfg : Cfg) (s : State) (todo : List (AccId × Nat)) : ∀ (n : Nat) (c : Scan),
    ∃ used rest, todo = used ++ rest ∧
      scan cfg s todo n c = visitAll cfg s.period c (used.filter fun e => !s.offline e.1) ∧
      (rest = [] ∨ 0 < n ∧ (used.filter fun e => !s.offline e.1).length = n) ∧
      (0 < n → (used.filter fun e => !s.offline e.1).length ≤ n) := by
  induction todo with
  | nil => intro n c; exact ⟨[], [], rfl, rfl, Or.inl rfl, fun _ => Nat.zero_le _⟩
  | cons x xs ih =>
    intro n c
    obtain ⟨a, left⟩ := x
    simp only [scan]
    split
    · rename_i ho
      obtain ⟨used, rest, h1, h2, h3, h4⟩ := ih n c
      refine ⟨(a, left) :: used, rest, by rw [h1]; rfl, ?_, ?_⟩
      · rw [List.filter_cons_of_neg (by simp [ho])]; exact h2
      · rw [List.filter_cons_of_neg (by simp [ho])]; exact ⟨h3, h4⟩
    · rename_i ho
      split
      · rename_i hn
        subst hn
        refine ⟨[(a, left)], xs, rfl, ?_, Or.inr ⟨by omega, ?_⟩, fun _ => ?_⟩
        · rw [List.filter_cons_of_pos (by simp [ho])]; rfl
        · rw [List.filter_cons_of_pos (by simp [ho])]; rfl
        · rw [List.filter_cons_of_pos (by simp [ho])]; exact Nat.le_refl _
      · rename_i hn
        obtain ⟨used, rest, h1, h2, h3, h4⟩ := ih (n - 1) (visit cfg s.period c a left)
        refine ⟨(a, left) :: used, rest, by rw [h1]; rfl, ?_, ?_, fun hp => ?_⟩
        · rw [List.filter_cons_of_pos (by simp [ho])]; exact h2
        rotate_left
        · rw [List.filter_cons_of_pos (by simp [ho]), List.length_cons]
          have := h4 (by omega)
          omega
        · rw [List.filter_cons_of_pos (by simp [ho])]
          rcases h3 with h3 | ⟨h3, h4⟩
          · exact Or.inl h3
          · right
            refine ⟨by omega, ?_⟩
            rw [List.length_cons, h4]; omega

/-- Stakers of a list who get a reward. -/
def paidOf (l : List (AccId × Nat)) : List AccId := (l.filter fun e => decide (e.2 ≠ 0)).map Prod.fst

/-- Stakers of a list who are at their end. -/
def endedOf (l : List (AccId × Nat)) : List AccId := (l.filter fun e => decide (e.2 = 0)).map Prod.fst

theorem payReward_fields (cfg : Cfg) (period : Nat) (c : Scan) (a : AccId) (left : Nat) :
    (payReward cfg period c a left).lastKey = c.lastKey ∧
    (payReward cfg period c a left).removed = c.removed ∧
    (payReward cfg period c a left).subbed = c.subbed ∧
    ∃ ok, (payReward cfg period c a left).pays = c.pays ++ [⟨a, perbillMul left period c.base, ok⟩] ∧
      (payReward cfg period c a left).minted =
        c.minted + (if ok then perbillMul left period c.base else 0) ∧
      (payReward cfg period c a left).asset.bal a =
        c.asset.bal a + (if ok then perbillMul left period c.base else 0) ∧
      (∀ x, x ≠ a → (payReward cfg period c a left).asset.bal x = c.asset.bal x) ∧
      ((payReward cfg period c a left).base = c.base ∨ (payReward cfg period c a left).base = c.base / 2) := by
  unfold payReward
  simp only
  cases hm : c.asset.mint a (perbillMul left period c.base) with
  | error e => exact ⟨rfl, rfl, rfl, false, rfl, rfl, rfl, fun _ _ => rfl, Or.inl rfl⟩
  | ok x =>
    obtain ⟨m1, m2, m3⟩ := Asset.mint_exact hm
    simp only
    split
    · exact ⟨rfl, rfl, rfl, true, rfl, rfl, m1, m2, Or.inr rfl⟩
    · exact ⟨rfl, rfl, rfl, true, rfl, rfl, m1, m2, Or.inl rfl⟩

theorem getLast_or {α : Type} (x y : α) (l : List α) (o : Option α) :
    (x :: y :: l).getLast?.or o = ((y :: l).getLast?).or (some x) := by
  rw [List.getLast?_cons_cons]
  rw [List.getLast?_eq_getLast_of_ne_nil (by simp)]
  rfl

theorem visitAll_fields (cfg : Cfg) (period : Nat) (l : List (AccId × Nat)) : ∀ c : Scan,
    (visitAll cfg period c l).removed = c.removed ++ endedOf l ∧
    (visitAll cfg period c l).subbed = c.subbed ++ paidOf l ∧
    (visitAll cfg period c l).pays.map Pay.acc = c.pays.map Pay.acc ++ paidOf l ∧
    (visitAll cfg period c l).lastKey =
      ((l.map fun e => cfg.key e.1).getLast?).or c.lastKey := by
  induction l with
  | nil => intro c; simp [visitAll, endedOf, paidOf]
  | cons e es ih =>
    intro c
    obtain ⟨h1, h2, h3, h4⟩ := ih (visit cfg period c e.1 e.2)
    have hv : visitAll cfg period c (e :: es) = visitAll cfg period (visit cfg period c e.1 e.2) es := rfl
    rw [hv, h1, h2, h3, h4]
    by_cases h0 : e.2 = 0
    · simp only [visit, h0, if_true, endedOf, paidOf, ne_eq, not_true, decide_false, decide_true,
        Bool.false_eq_true, not_false_eq_true, List.filter_cons_of_neg, List.filter_cons_of_pos,
        List.map_cons, List.append_assoc, List.singleton_append, true_and]
      cases es with
      | nil => simp
      | cons y ys => exact (getLast_or _ _ _ _).symm
    · obtain ⟨p1, p2, p3, ok, p4, _⟩ :=
        payReward_fields cfg period { c with lastKey := some (cfg.key e.1) } e.1 e.2
      simp only [visit, h0, if_false, p1, p2, p3, p4, endedOf, paidOf, ne_eq, not_false_eq_true,
        decide_false, decide_true, Bool.false_eq_true, List.filter_cons_of_neg,
        List.filter_cons_of_pos, List.map_cons, List.append_assoc, true_and,
        List.map_append, List.map_nil, List.cons_append, List.nil_append]
      cases es with
      | nil => simp
      | cons y ys => exact (getLast_or _ _ _ _).symm

/-- Sum of the rewards of a list that were minted for `x`. -/
def paidTo (x : AccId) (l : List Pay) : Balance :=
  (l.map fun r => if r.acc = x ∧ r.ok = true then r.amount else 0).sum

/-- Sum of the rewards of a list that were minted. -/
def paidAll (l : List Pay) : Balance := (l.map fun r => if r.ok then r.amount else 0).sum

theorem visitAll_money (cfg : Cfg) (period : Nat) (l : List (AccId × Nat)) : ∀ c : Scan, ∃ new,
    (visitAll cfg period c l).pays = c.pays ++ new ∧
    (visitAll cfg period c l).minted = c.minted + paidAll new ∧
    (∀ x, (visitAll cfg period c l).asset.bal x = c.asset.bal x + paidTo x new) ∧
    (∀ r ∈ new, ∃ left j, (r.acc, left) ∈ l ∧ left ≠ 0 ∧
      r.amount = perbillMul left period (c.base / 2 ^ j)) := by
  induction l with
  | nil => intro c; exact ⟨[], by simp [visitAll, paidAll, paidTo]⟩
  | cons e es ih =>
    intro c
    obtain ⟨new, h1, h2, h3, h4⟩ := ih (visit cfg period c e.1 e.2)
    have hv : visitAll cfg period c (e :: es) = visitAll cfg period (visit cfg period c e.1 e.2) es := rfl
    rw [hv]
    by_cases h0 : e.2 = 0
    · have hvis : visit cfg period c e.1 e.2 =
          { c with lastKey := some (cfg.key e.1), removed := c.removed ++ [e.1] } := by
        simp [visit, h0]
      rw [hvis] at h1 h2 h3 h4 ⊢
      refine ⟨new, h1, h2, h3, ?_⟩
      intro r hr
      obtain ⟨left, j, q1, q2, q3⟩ := h4 r hr
      exact ⟨left, j, List.mem_cons_of_mem _ q1, q2, q3⟩
    · obtain ⟨p1, p2, p3, ok, p4, p5, p6, p7, p8⟩ :=
        payReward_fields cfg period { c with lastKey := some (cfg.key e.1) } e.1 e.2
      generalize hc : payReward cfg period { c with lastKey := some (cfg.key e.1) } e.1 e.2 = c1 at *
      have hvis : visit cfg period c e.1 e.2 = { c1 with subbed := c1.subbed ++ [e.1] } := by
        simp [visit, h0, hc]
      rw [hvis] at h1 h2 h3 h4 ⊢
      simp only at h1 h2 h3 h4 p4 p5 p6 p7 p8
      refine ⟨⟨e.1, perbillMul e.2 period c.base, ok⟩ :: new, ?_, ?_, ?_, ?_⟩
      · rw [h1, p4, List.append_assoc]; rfl
      · rw [h2, p5]
        simp only [paidAll, List.map_cons, List.sum_cons]
        omega
      · intro x
        rw [h3 x]
        simp only [paidTo, List.map_cons, List.sum_cons]
        by_cases hx : x = e.1
        · subst hx
          rw [p6]
          simp only [true_and]
          omega
        · rw [p7 x hx, if_neg (fun h => hx h.1.symm)]
          omega
      · intro r hr
        rw [List.mem_cons] at hr
        rcases hr with rfl | hr
        · exact ⟨e.2, 0, by simp, h0, by simp⟩
        · obtain ⟨left, j, q1, q2, q3⟩ := h4 r hr
          refine ⟨left, ?_⟩
          rcases p8 with p8 | p8
          · exact ⟨j, List.mem_cons_of_mem _ q1, q2, by rw [q3, p8]⟩
          · refine ⟨j + 1, List.mem_cons_of_mem _ q1, q2, ?_⟩
            rw [q3, p8, Nat.div_div_eq_div_mul, Nat.pow_succ, Nat.mul_comm 2]

/-! ### Storage after the loop -/

/-- Everything but the stakers and NFTs. -/
structure SameRest (s s' : State) : Prop where
  now : s'.now = s.now
  savedDay : s'.savedDay = s.savedDay
  perBlock : s'.perBlock = s.perBlock
  period : s'.period = s.period
  rate : s'.rate = s.rate
  bank : s'.bank = s.bank
  offline : s'.offline = s.offline
  priv : s'.priv = s.priv
  cursor : s'.cursor = s.cursor
  asset : s'.asset = s.asset
  minted : s'.minted = s.minted
  base : s'.base = s.base
  target : s'.target = s.target

theorem SameRest.refl (s : State) : SameRest s s :=
  ⟨rfl, rfl, rfl, rfl, rfl, rfl, rfl, rfl, rfl, rfl, rfl, rfl, rfl⟩

theorem SameRest.trans {s s' s'' : State} (h : SameRest s s') (h' : SameRest s' s'') :
    SameRest s s'' :=
  ⟨h'.now.trans h.now, h'.savedDay.trans h.savedDay, h'.perBlock.trans h.perBlock,
    h'.period.trans h.period, h'.rate.trans h.rate, h'.bank.trans h.bank, h'.offline.trans h.offline,
    h'.priv.trans h.priv, h'.cursor.trans h.cursor, h'.asset.trans h.asset, h'.minted.trans h.minted,
    h'.base.trans h.base, h'.target.trans h.target⟩

theorem removeStaker_shape (s : State) (a : AccId) :
    SameRest s (removeStaker s a) ∧ (removeStaker s a).stakers = s.stakers.erase a ∧
    (removeStaker s a).nftOf = s.nftOf.erase a := by
  unfold removeStaker
  simp only
  split
  · exact ⟨⟨rfl, rfl, rfl, rfl, rfl, rfl, rfl, rfl, rfl, rfl, rfl, rfl, rfl⟩, rfl, rfl⟩
  · split
    · exact ⟨⟨rfl, rfl, rfl, rfl, rfl, rfl, rfl, rfl, rfl, rfl, rfl, rfl, rfl⟩, rfl, rfl⟩
    · exact ⟨⟨rfl, rfl, rfl, rfl, rfl, rfl, rfl, rfl, rfl, rfl, rfl, rfl, rfl⟩, rfl, rfl⟩

theorem subDay_shape (s : State) (a : AccId) :
    SameRest s (subDay s a) ∧
    (∀ b, (subDay s a).stakers.get b = if b = a then (s.stakers.get a).map (· - 1) else s.stakers.get b) ∧
    (subDay s a).nftOf = s.nftOf := by
  unfold subDay
  cases h : s.stakers.get a with
  | none =>
    refine ⟨SameRest.refl s, ?_, rfl⟩
    intro b
    by_cases hb : b = a
    · subst hb; simp [h]
    · simp [hb]
  | some p =>
    refine ⟨⟨rfl, rfl, rfl, rfl, rfl, rfl, rfl, rfl, rfl, rfl, rfl, rfl, rfl⟩, ?_, rfl⟩
    intro b
    simp only [FMap.get_insert, Option.map_some]

theorem foldl_remove (l : List AccId) : ∀ s : State,
    SameRest s (l.foldl removeStaker s) ∧
    (∀ a, (l.foldl removeStaker s).stakers.get a = if a ∈ l then none else s.stakers.get a) ∧
    (∀ a, (l.foldl removeStaker s).nftOf.get a = if a ∈ l then none else s.nftOf.get a) := by
  induction l with
  | nil => intro s; exact ⟨SameRest.refl s, by simp, by simp⟩
  | cons x xs ih =>
    intro s
    obtain ⟨h1, h2, h3⟩ := ih (removeStaker s x)
    obtain ⟨g1, g2, g3⟩ := removeStaker_shape s x
    refine ⟨g1.trans h1, ?_, ?_⟩
    · intro a
      rw [List.foldl_cons, h2, g2, FMap.get_erase]
      by_cases hx : a = x
      · simp [hx]
      · simp [hx]
    · intro a
      rw [List.foldl_cons, h3, g3, FMap.get_erase]
      by_cases hx : a = x
      · simp [hx]
      · simp [hx]

theorem foldl_sub (l : List AccId) (hn : l.Nodup) : ∀ s : State,
    SameRest s (l.foldl subDay s) ∧
    (∀ a, (l.foldl subDay s).stakers.get a =
      if a ∈ l then (s.stakers.get a).map (· - 1) else s.stakers.get a) ∧
    (l.foldl subDay s).nftOf = s.nftOf := by
  induction l with
  | nil => intro s; exact ⟨SameRest.refl s, by simp, rfl⟩
  | cons x xs ih =>
    intro s
    rw [List.nodup_cons] at hn
    obtain ⟨h1, h2, h3⟩ := ih hn.2 (subDay s x)
    obtain ⟨g1, g2, g3⟩ := subDay_shape s x
    refine ⟨g1.trans h1, ?_, ?_⟩
    · intro a
      rw [List.foldl_cons, h2, g2]
      by_cases hx : a = x
      · subst hx; simp [hn.1]
      · simp [hx]
    · rw [List.foldl_cons, h3, g3]

/-- What a block pays: `vis` are the stakers treated, with their remaining days. -/
structure Rewarded (cfg : Cfg) (s s' : State) (pays : List Pay) (k : Nat) (vis : List (AccId × Nat)) :
    Prop where
  nodup : (vis.map Prod.fst).Nodup
  sorted : (vis.map fun e => cfg.key e.1).Pairwise (· ≤ ·)
  mem : ∀ a p, (a, p) ∈ vis → s.stakers.get a = some p ∧ s.offline a = false ∧ k < cfg.key a
  accs : pays.map Pay.acc = paidOf vis
  amounts : ∀ r ∈ pays, ∃ left j, (r.acc, left) ∈ vis ∧ left ≠ 0 ∧
    r.amount = perbillMul left s.period (s.base / 2 ^ j)
  money : ∀ x, s'.asset.bal x = s.asset.bal x + paidTo x pays
  minted : s'.minted = s.minted + paidAll pays
  inside : ∀ a p, (a, p) ∈ vis → s'.stakers.get a = if p = 0 then none else some (p - 1)
  outside : ∀ a, a ∉ vis.map Prod.fst → s'.stakers.get a = s.stakers.get a
  nftIn : ∀ a, (a, 0) ∈ vis → s'.nftOf.get a = none
  nftOut : ∀ a, (a, 0) ∉ vis → s'.nftOf.get a = s.nftOf.get a
  cursor : s'.cursor = (vis.map fun e => cfg.key e.1).getLast?
  cover : ∀ a p, s.stakers.get a = some p → s.offline a = false → k < cfg.key a →
    a ∈ vis.map Prod.fst ∨
    (0 < s.perBlock ∧ vis.length = s.perBlock ∧ ∃ k', s'.cursor = some k' ∧ k' ≤ cfg.key a)
  now : s'.now = s.now
  savedDay : s'.savedDay = s.savedDay
  perBlock : s'.perBlock = s.perBlock
  period : s'.period = s.period
  offline : s'.offline = s.offline
  bank : s'.bank = s.bank
  priv : s'.priv = s.priv
  rate : s'.rate = s.rate
  bounded : 0 < s.perBlock → vis.length ≤ s.perBlock

theorem reward_rewarded (cfg : Cfg) (s : State) (k : Nat) (hk : s.cursor = some k) :
    ∃ vis, Rewarded cfg s (reward cfg s).1 (reward cfg s).2 k vis := by
  unfold reward
  rw [hk]
  simp only
  generalize hc0 : (⟨s.asset, s.minted, s.base, s.target, none, [], [], []⟩ : Scan) = c0
  generalize htd : (sortByKey cfg.key s.stakers.entries).filter (fun e => decide (k < cfg.key e.1)) = todo
  obtain ⟨used, rest, hsplit, hscan, hfull, hcount⟩ := scan_shape cfg s todo s.perBlock c0
  rw [hscan]
  generalize hvis : used.filter (fun e => !s.offline e.1) = vis at *
  have hperm := sortByKey_perm cfg.key s.stakers.entries
  have hsubt : todo.Sublist (sortByKey cfg.key s.stakers.entries) := by
    rw [← htd]; exact List.filter_sublist
  have hsubv : vis.Sublist todo := by
    rw [hsplit, ← hvis]
    exact List.filter_sublist.trans (List.sublist_append_left _ _)
  have hsub := hsubv.trans hsubt
  have hnod : (vis.map Prod.fst).Nodup := by
    refine List.Nodup.sublist (hsub.map _) ?_
    exact (hperm.map Prod.fst).nodup_iff.2 s.stakers.nodup
  have hsorted : todo.Pairwise fun x y => cfg.key x.1 ≤ cfg.key y.1 :=
    List.Pairwise.sublist hsubt (sortByKey_sorted cfg.key _)
  have hmem : ∀ a p, (a, p) ∈ vis → s.stakers.get a = some p ∧ s.offline a = false ∧ k < cfg.key a := by
    intro a p h
    refine ⟨?_, ?_, ?_⟩
    · rw [← FMap.mem_entries_iff]; exact hperm.mem_iff.1 (hsub.subset h)
    · rw [← hvis] at h
      have := (List.mem_filter.1 h).2
      simpa using this
    · have := hsubv.subset h
      rw [← htd] at this
      simpa using (List.mem_filter.1 this).2
  obtain ⟨f1, f2, f3, f4⟩ := visitAll_fields cfg s.period vis c0
  obtain ⟨new, m1, m2, m3, m4⟩ := visitAll_money cfg s.period vis c0
  have hpays : (visitAll cfg s.period c0 vis).pays = new := by rw [m1, ← hc0]; simp
  have hrem : (visitAll cfg s.period c0 vis).removed = endedOf vis := by rw [f1, ← hc0]; simp
  have hsubd : (visitAll cfg s.period c0 vis).subbed = paidOf vis := by rw [f2, ← hc0]; simp
  have hpn : (paidOf vis).Nodup := by
    unfold paidOf
    exact List.Nodup.sublist (List.filter_sublist.map _) hnod
  rw [hpays, hrem, hsubd]
  generalize hs1 : ({ s with
    asset := (visitAll cfg s.period c0 vis).asset
    minted := (visitAll cfg s.period c0 vis).minted
    base := (visitAll cfg s.period c0 vis).base
    target := (visitAll cfg s.period c0 vis).target
    cursor := (visitAll cfg s.period c0 vis).lastKey } : State) = s1
  obtain ⟨r1, r2, r3⟩ := foldl_remove (endedOf vis) s1
  obtain ⟨q1, q2, q3⟩ := foldl_sub (paidOf vis) hpn ((endedOf vis).foldl removeStaker s1)
  have hrest := r1.trans q1
  have hmemEnd : ∀ a, a ∈ endedOf vis ↔ (a, 0) ∈ vis := by
    intro a
    unfold endedOf
    simp
  have hmemPaid : ∀ a, a ∈ paidOf vis ↔ ∃ p, (a, p) ∈ vis ∧ p ≠ 0 := by
    intro a
    unfold paidOf
    simp
  have huniq : ∀ a p p', (a, p) ∈ vis → (a, p') ∈ vis → p = p' := by
    intro a p p' h h'
    have h1 := (hmem a p h).1
    rw [(hmem a p' h').1] at h1
    simpa using h1.symm
  have hcur : s1.cursor = (vis.map fun e => cfg.key e.1).getLast? := by
    rw [← hs1]
    simp only
    rw [f4, ← hc0]
    simp
  refine ⟨vis, hnod, ?_, hmem, ?_, ?_, ?_, ?_, ?_, ?_, ?_, ?_, ?_, ?_, ?_, ?_, ?_, ?_, ?_, ?_, ?_, ?_, ?_⟩
  · exact List.pairwise_map.2 (List.Pairwise.sublist hsubv hsorted)
  · rw [hpays, ← hc0] at f3; simpa using f3
  · rw [← hc0] at m4; exact m4
  · intro x
    rw [hrest.asset, ← hs1]
    simp only
    rw [m3 x, ← hc0]
  · rw [hrest.minted, ← hs1]
    simp only
    rw [m2, ← hc0]
  · intro a p h
    rw [q2, r2]
    by_cases hp : p = 0
    · subst hp
      rw [if_pos rfl, if_pos ((hmemEnd a).2 h), if_neg]
      intro hpaid
      obtain ⟨p', hp', hne⟩ := (hmemPaid a).1 hpaid
      exact hne (huniq a _ _ hp' h)
    · rw [if_neg hp, if_pos ((hmemPaid a).2 ⟨p, h, hp⟩), if_neg]
      · rw [← hs1]
        simp only [(hmem a p h).1, Option.map_some]
      · intro hend
        exact hp (huniq a _ _ h ((hmemEnd a).1 hend))
  · intro a ha
    have hne : ∀ p, (a, p) ∉ vis := fun p hp => ha (List.mem_map.2 ⟨_, hp, rfl⟩)
    rw [q2, r2, if_neg, if_neg]
    · rw [← hs1]
    · intro h; exact hne _ ((hmemEnd a).1 h)
    · intro h
      obtain ⟨p, hp, _⟩ := (hmemPaid a).1 h
      exact hne p hp
  · intro a ha
    rw [q3, r3, if_pos ((hmemEnd a).2 ha)]
  · intro a ha
    rw [q3, r3, if_neg (fun h => ha ((hmemEnd a).1 h)), ← hs1]
  · rw [hrest.cursor, hcur]
  · intro a p hst hoff hkey
    have hin : (a, p) ∈ todo := by
      rw [← htd, List.mem_filter]
      refine ⟨hperm.mem_iff.2 ((FMap.mem_entries_iff _ _ _).2 hst), by simpa using hkey⟩
    rw [hsplit, List.mem_append] at hin
    rcases hin with hin | hin
    · left
      refine List.mem_map.2 ⟨(a, p), ?_, rfl⟩
      rw [← hvis, List.mem_filter]
      exact ⟨hin, by simp [hoff]⟩
    · rcases hfull with hfull | ⟨hpos, hlen⟩
      · rw [hfull] at hin; cases hin
      · right
        refine ⟨hpos, hlen, ?_⟩
        rw [hrest.cursor, hcur]
        have hne : vis.map (fun e => cfg.key e.1) ≠ [] := by
          intro h
          have := congrArg List.length h
          simp only [List.length_map, List.length_nil] at this
          omega
        refine ⟨(vis.map fun e => cfg.key e.1).getLast hne, List.getLast?_eq_getLast_of_ne_nil hne, ?_⟩
        have hl := List.getLast_mem hne
        obtain ⟨y, hy, hyk⟩ := List.mem_map.1 hl
        rw [← hyk]
        rw [hsplit, List.pairwise_append] at hsorted
        refine hsorted.2.2 y ?_ (a, p) hin
        rw [← hvis] at hy
        exact (List.mem_filter.1 hy).1
  · rw [hrest.now, ← hs1]
  · rw [hrest.savedDay, ← hs1]
  · rw [hrest.perBlock, ← hs1]
  · rw [hrest.period, ← hs1]
  · rw [hrest.offline, ← hs1]
  · rw [hrest.bank, ← hs1]
  · rw [hrest.priv, ← hs1]
  · rw [hrest.rate, ← hs1]
  · exact hcount

theorem init_rollover (cfg : Cfg) (s : State) (h : s.savedDay < s.today) :
    blockInit cfg s =
      ({ s with savedDay := s.today, cursor := some 0, perBlock := s.stakers.entries.length / 17000 + 2 },
        []) := by
  unfold blockInit; rw [if_pos h]

theorem init_reward (cfg : Cfg) (s : State) (h : ¬ s.savedDay < s.today) :
    blockInit cfg s = reward cfg s := by
  unfold blockInit; rw [if_neg h]

theorem reward_idle (cfg : Cfg) (s : State) (h : s.cursor = none) : reward cfg s = (s, []) := by
  unfold reward; rw [h]

end Verif.Adsc
