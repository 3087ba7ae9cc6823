import Verif.PayoutSpec
import Verif.CreditLaw

/-!
What `get_reward` returns, exactly, and what it leaves alone.
-/

namespace Verif.Payout

open Verif.Credit

theorem range_filter (m : Nat) : ∀ (n x : Nat), (List.range' x n).filter (fun e => decide (e ≤ m)) = List.range' x (min n (m + 1 - x)) := by
  intro n
  induction n with
  | zero => intro x; simp
  | succ n ih =>
    intro x
    rw [List.range'_succ]
    by_cases h : x ≤ m
    · rw [List.filter_cons_of_pos (by simpa using h), ih]
      have e : min (n + 1) (m + 1 - x) = min n (m + 1 - (x + 1)) + 1 := by omega
      rw [e, List.range'_succ]
    · rw [List.filter_cons_of_neg (by simpa using h), ih]
      have e : min (n + 1) (m + 1 - x) = 0 := by omega
      have e' : min n (m + 1 - (x + 1)) = 0 := by omega
      rw [e, e']
      rfl

theorem eras_filter (x y m : Nat) : (eras x y).filter (fun e => decide (e ≤ m)) = eras x (min y m) := by
  unfold eras
  rw [range_filter]
  congr 1
  omega

/-- With a reward period, the eras owed are those within the period whose record suffices. -/
theorem owed_eq {cfg : Cfg} {k : State} {a : AccId} {d : Data} (x y : Nat) (hd : k.core.userCredit.get a = some d) (hr : d.rewardEras ≠ 0) :
    owed cfg k a x y = (eras x (min y (periodStart (historyOf k.core a) (currentEra cfg k) + d.rewardEras - 1))).filter (earns cfg (historyOf k.core a)) := by
  unfold owed
  rw [hd, ← eras_filter, List.filter_filter]
  simp only
  congr 1
  funext e
  rw [Bool.and_comm]
  congr 1
  simp only [decide_eq_decide]
  omega

theorem recordedAt_start {h : List (Nat × Data)} (hs : h.Pairwise (fun x y => x.1 < y.1)) {e cur : Nat} {d : Data}
    (hr : recordedAt h e = some d) : periodStart h cur ≤ e := by
  unfold recordedAt at hr
  cases h with
  | nil => cases hr
  | cons p t =>
    show p.1 ≤ e
    by_cases hp : p.1 ≤ e
    · exact hp
    · exfalso
      rw [List.pairwise_cons] at hs
      have : (p :: t).filter (fun q => decide (q.1 ≤ e)) = [] := by
        rw [List.filter_eq_nil_iff]
        intro q hq
        rcases List.mem_cons.1 hq with rfl | hq
        · simpa using hp
        · have := hs.1 q hq
          simp; omega
      rw [this] at hr
      cases hr

/-- Nothing is owed without a reward period. -/
theorem owed_zero {cfg : Cfg} {k : State} {a : AccId} {d : Data} (x y : Nat) (hi : CoreInv False (currentEra cfg k) k.core)
    (hd : k.core.userCredit.get a = some d) (hr : d.rewardEras = 0) : owed cfg k a x y = [] := by
  unfold owed
  rw [hd]
  simp only
  rw [List.filter_eq_nil_iff]
  intro e _ hc
  rw [Bool.and_eq_true, decide_eq_true_eq, hr] at hc
  obtain ⟨h1, h2⟩ := hc
  unfold earns at h2
  split at h2
  · rename_i r hre
    have hs : (historyOf k.core a).Pairwise (fun x y => x.1 < y.1) := by
      unfold historyOf
      cases hh : k.core.history.get a with
      | none => exact List.Pairwise.nil
      | some l => exact (hi.chron a l hh).1
    have := recordedAt_start (cur := currentEra cfg k) hs hre
    omega
  · cases h2

theorem rewardOf_none {cfg : Cfg} {s : State} {a : AccId} {h : List (Nat × Data)} {x y : Nat}
    (hs : h.Pairwise (fun x y => x.1 < y.1)) (hne : h ≠ []) (hr : rewardOf cfg s a h x y = .ok none) :
    (eras x y).filter (earns cfg h) = [] := by
  unfold rewardOf at hr
  rw [creditMap_eq cfg hs hne] at hr
  simp only at hr
  split at hr
  · rename_i hem
    rw [List.filter_eq_nil_iff]
    intro e he hearn
    unfold earns at hearn
    split at hearn
    · rename_i d hd
      simp only [decide_eq_true_eq] at hearn
      have hc := get_foldl_addEra cfg h (eras x y) ∅ d
      have hpos : 0 < (((eras x y)).filter fun e => decide (recordedAt h e = some d ∧ cfg.minCredit ≤ d.credit)).length := by
        apply List.length_pos_of_mem (a := e)
        simp [he, hd, hearn]
      cases hg : ((eras x y).foldl (addEra cfg h) ∅).get d with
      | none =>
        rw [hg] at hc
        simp only [FMap.get_empty, Option.getD_none, Nat.zero_add] at hc
        omega
      | some n =>
        have := FMap.lget_mem hg
        have hnil : ((eras x y).foldl (addEra cfg h) ∅).entries = [] := by simpa using hem
        rw [hnil] at this
        cases this
    · cases hearn
  · obtain ⟨v, _, h2⟩ := map_ok hr
    cases h2

theorem rewardOf_some {cfg : Cfg} {s : State} {a : AccId} {h : List (Nat × Data)} {x y : Nat} {r : Balance}
    (hs : h.Pairwise (fun x y => x.1 < y.1)) (hne : h ≠ []) (hr : rewardOf cfg s a h x y = .ok (some r)) :
    (eras x y).filter (earns cfg h) ≠ [] := by
  unfold rewardOf at hr
  rw [creditMap_eq cfg hs hne] at hr
  simp only at hr
  split at hr
  · cases hr
  rename_i hem
  intro hnil
  apply hem
  cases hl : ((eras x y).foldl (addEra cfg h) ∅).entries with
  | nil => rfl
  | cons p t =>
    exfalso
    have hmem : (p.1, p.2) ∈ ((eras x y).foldl (addEra cfg h) ∅).entries := by rw [hl]; simp
    have hg := (FMap.mem_entries_iff _ _ _).1 hmem
    rcases mem_foldl_addEra cfg h (eras x y) ∅ hg with ⟨n, h0⟩ | ⟨e, he, h1, h2⟩
    · simp at h0
    · rw [List.filter_eq_nil_iff] at hnil
      apply hnil e he
      unfold earns
      rw [h1]
      simpa using h2

/-- A query reaches a non-empty history. -/
theorem slashed_history {cfg : Cfg} {cur : Nat} {c1 c2 : Core} {a : AccId} {d : Data} {n : Nat} {m : Bool}
    (hat : cfg.attenuationStep ≠ 2 ^ 64 - 1) (hd : c1.userCredit.get a = some d) (f2 : historyOf c1 a ≠ [])
    (hso : slashOffline cfg cur c1 a n m = .ok c2) : historyOf c2 a ≠ [] := by
  intro h0
  unfold slashOffline at hso
  split at hso
  · split at hso
    · cases hso; exact f2 h0
    · rw [slashCredit_some hd] at hso
      simp only [Option.getD_none, u64Max, hat, if_false, Except.ok.injEq] at hso
      rw [← hso, historyOf_writeCore] at h0
      revert h0
      split
      · rename_i he; intro _; exact f2 (by simpa using he)
      · intro h0; exact pushHistory_ne_nil f2 _ _ h0
  · cases hso; exact f2 h0

theorem sum_congr {α : Type} {l : List α} {f g : α → Nat} (h : ∀ x ∈ l, f x = g x) : (l.map f).sum = (l.map g).sum := by
  rw [List.map_congr_left h]

/-- The reward of a query is what is due. -/
theorem getReward_due {cfg : Cfg} {k : State} {a : AccId} {x y : Nat} {c' : Core} {r : Option Balance}
    (hi : CoreInv False (currentEra cfg k) k.core) (hat : cfg.attenuationStep ≠ 2 ^ 64 - 1) (hxy : x ≤ y)
    (hy : y < currentEra cfg k) (h : getReward cfg k a x y = .ok (c', r)) : Due cfg k a x y r := by
  cases hd : k.core.userCredit.get a with
  | none =>
    left
    refine ⟨by unfold owed; rw [hd], ?_⟩
    unfold getReward at h
    simp only [hd] at h
    split at h <;> (cases h; rfl)
  | some d =>
    by_cases hre : d.rewardEras = 0
    · left
      refine ⟨owed_zero x y hi hd hre, ?_⟩
      unfold getReward at h
      simp only [hd, hre, if_true] at h
      split at h <;> (cases h; rfl)
    · have howed := owed_eq (cfg := cfg) x y hd hre
      have h0 := h
      unfold getReward at h
      simp only at h
      rw [if_neg (by omega), hd] at h
      simp only [hre, if_false] at h
      obtain ⟨f1, f2, f3⟩ := firstHistory cfg k a d
      have h1 : CoreInv False (currentEra cfg k) (if (historyOf k.core a).isEmpty = true then
          initHistory k.core a d (currentEra cfg k) else k.core) ∧
          (∀ e, e < currentEra cfg k → recordedAt (historyOf (if (historyOf k.core a).isEmpty = true then
            initHistory k.core a d (currentEra cfg k) else k.core) a) e = recordedAt (historyOf k.core a) e) := by
        split
        · rename_i hem
          have hnil : historyOf k.core a = [] := by simpa using hem
          have hini : historyOf (initHistory k.core a d (currentEra cfg k)) a = [(currentEra cfg k, d)] := by
            simp [initHistory, historyOf, FMap.get_insert_self]
          refine ⟨initHistory_inv hi hd, ?_⟩
          intro e he
          rw [hini, hnil]
          have := recordedAt_append_single (h := []) (d := d) he
          simpa using this
        · exact ⟨hi, fun _ _ => rfl⟩
      generalize (if (historyOf k.core a).isEmpty = true then initHistory k.core a d (currentEra cfg k) else k.core) = c1 at h f1 f2 f3 h1
      obtain ⟨h1, hrec⟩ := h1
      split at h
      · cases h
      rename_i c2 hso
      have hne := slashed_history hat (by rw [f1]; exact hd) f2 hso
      have h2 := slashOffline_inv h1 hso
      obtain ⟨g1, g2⟩ := slashOffline_history hso hne
      rw [f3] at g2
      cases hh : historyOf c2 a with
      | nil => exact absurd hh hne
      | cons first rest =>
        have hstored : c2.history.get a = some (first :: rest) := by
          have := historyOf_nonempty (c := c2) (a := a) (by rw [hh]; rfl)
          rw [hh] at this; exact this
        have hsort := (h2.chron a _ hstored).1
        have hfirst : first.1 = periodStart (historyOf k.core a) (currentEra cfg k) := by rw [← g2, hh]; rfl
        rw [hh] at h
        simp only [hfirst] at h
        generalize periodStart (historyOf k.core a) (currentEra cfg k) + d.rewardEras - 1 = expiry at h howed
        have hrec' : ∀ e ∈ eras x (min y expiry), earns cfg (first :: rest) e = earns cfg (historyOf k.core a) e := by
          intro e he
          rw [mem_eras] at he
          have hlt : e < currentEra cfg k := by omega
          unfold earns
          rw [← hh, g1 e hlt, hrec e hlt]
        have hsame : (eras x (min y expiry)).filter (earns cfg (first :: rest)) = owed cfg k a x y := by
          rw [howed]
          exact List.filter_congr hrec'
        have key : rewardOf cfg k a (first :: rest) x (min y expiry) = .ok r → Due cfg k a x y r := by
          intro hr
          cases r with
          | none => exact .inl ⟨by rw [← hsame]; exact rewardOf_none hsort (by simp) hr, rfl⟩
          | some v =>
            right
            refine ⟨by rw [← hsame]; exact rewardOf_some hsort (by simp) hr, ?_⟩
            obtain ⟨_, _, f, q1, q2⟩ := getReward_some (.inr hi) h0
            have hp : paidEras cfg k a x y = owed cfg k a x y := by
              rw [owed_eq (cfg := cfg) x y hd hre]
              unfold paidEras
              rw [hd]
            rw [hp] at q1 q2
            exact ⟨f, q1, by rw [q2]⟩
        split at h
        · split at h
          · cases h
          · obtain ⟨v, hv1, hv2⟩ := map_ok h
            cases hv2
            exact key hv1
        · split at h
          · rename_i hlt
            cases h
            left
            refine ⟨?_, rfl⟩
            rw [howed]
            have : eras x (min y expiry) = [] := by
              unfold eras
              have : min y expiry + 1 - x = 0 := by omega
              rw [this]; rfl
            rw [this]; rfl
          · obtain ⟨v, hv1, hv2⟩ := map_ok h
            cases hv2
            exact key hv1

/-- What is due is determined. -/
theorem Due.unique {cfg : Cfg} {k : State} {a : AccId} {x y : Nat} {v w : Option Balance} (h : Due cfg k a x y v)
    (h' : Due cfg k a x y w) : v = w := by
  rcases h with ⟨e, rfl⟩ | ⟨e, f, hf, rfl⟩
  · rcases h' with ⟨_, rfl⟩ | ⟨e', _⟩
    · rfl
    · exact absurd e e'
  · rcases h' with ⟨e', rfl⟩ | ⟨_, g, hg, rfl⟩
    · exact absurd e' e
    · congr 1
      apply sum_congr
      intro z hz
      obtain ⟨d, r1, r2⟩ := hf z hz
      obtain ⟨d', r1', r2'⟩ := hg z hz
      rw [r1] at r1'
      cases r1'
      rw [r2] at r2'
      exact Except.ok.inj r2'

/-- The records of an account are the same. -/
def Same (c c' : Core) (a : AccId) : Prop := c'.userCredit.get a = c.userCredit.get a ∧ c'.history.get a = c.history.get a

/-- What is due depends on the records of the account only. -/
theorem Due.local {cfg : Cfg} {k : State} {c : Core} {a : AccId} {x y : Nat} {v : Option Balance} (hs : Same k.core c a)
    (h : Due cfg { k with core := c } a x y v) : Due cfg k a x y v := by
  obtain ⟨h1, h2⟩ := hs
  have e1 : historyOf c a = historyOf k.core a := by unfold historyOf; rw [h2]
  have e2 : owed cfg { k with core := c } a x y = owed cfg k a x y := by
    unfold owed
    simp only
    rw [h1, e1]
    rfl
  unfold Due at h ⊢
  rw [e2] at h
  simp only [e1] at h
  exact h

/-- Same reward, whatever happened to the records of other accounts. -/
theorem reward_local {cfg : Cfg} {k : State} {c c1 c2 : Core} {a : AccId} {x y : Nat} {v w : Option Balance}
    (hi : CoreInv False (currentEra cfg k) k.core) (hi' : CoreInv False (currentEra cfg k) c) (hat : cfg.attenuationStep ≠ 2 ^ 64 - 1)
    (hs : Same k.core c a) (h : getReward cfg { k with core := c } a x y = .ok (c1, v)) (h' : getReward cfg k a x y = .ok (c2, w)) : v = w := by
  by_cases hg : x ≤ y ∧ y < currentEra cfg k
  · exact (Due.local hs (getReward_due (k := { k with core := c }) hi' hat hg.1 hg.2 h)).unique (getReward_due hi hat hg.1 hg.2 h')
  · have hc : y < x ∨ currentEra cfg k ≤ y := by omega
    unfold getReward at h h'
    simp only at h h'
    rw [if_pos hc] at h'
    have hc' : y < x ∨ currentEra cfg { k with core := c } ≤ y := hc
    rw [if_pos hc'] at h
    cases h; cases h'; rfl

theorem Same.refl (c : Core) (a : AccId) : Same c c a := ⟨rfl, rfl⟩

theorem Same.trans {c c' c'' : Core} {a : AccId} (h : Same c c' a) (h' : Same c' c'' a) : Same c c'' a :=
  ⟨h'.1.trans h.1, h'.2.trans h.2⟩

theorem write_same {c : Core} {a b : AccId} {d : Data} {era : Nat} (hb : b ≠ a) : Same c (writeCore c a d era) b := by
  unfold writeCore
  refine ⟨FMap.get_insert_ne _ _ hb, ?_⟩
  simp only
  split
  · rfl
  · exact FMap.get_insert_ne _ _ hb

/-- A query leaves the records of other accounts alone. -/
theorem getReward_same {cfg : Cfg} {k : State} {a b : AccId} {x y : Nat} {c' : Core} {r : Option Balance}
    (h : getReward cfg k a x y = .ok (c', r)) (hb : b ≠ a) : Same k.core c' b := by
  cases hd : k.core.userCredit.get a with
  | none =>
    unfold getReward at h
    simp only [hd] at h
    split at h <;> (cases h; exact Same.refl _ _)
  | some d =>
    by_cases hreach : x ≤ y ∧ y < currentEra cfg k ∧ d.rewardEras ≠ 0
    · obtain ⟨h1, h2, h3⟩ := hreach
      obtain ⟨c2, hso, hcase⟩ := getReward_shape hd h3 h1 h2 h
      have g1 : Same k.core (if (historyOf k.core a).isEmpty = true then initHistory k.core a d (currentEra cfg k) else k.core) b := by
        split
        · exact ⟨rfl, FMap.get_insert_ne _ _ hb⟩
        · exact Same.refl _ _
      have f1 := (firstHistory cfg k a d).1
      generalize (if (historyOf k.core a).isEmpty = true then initHistory k.core a d (currentEra cfg k) else k.core) = c1 at *
      have g2 : Same c1 c2 b := by
        unfold slashOffline at hso
        split at hso
        · split at hso
          · cases hso; exact Same.refl _ _
          · rw [slashCredit_some (by rw [f1]; exact hd)] at hso
            cases hso
            split
            · exact ⟨FMap.get_erase_ne _ hb, FMap.get_erase_ne _ hb⟩
            · exact write_same hb
        · cases hso; exact Same.refl _ _
      rcases hcase with ⟨rfl, _⟩ | ⟨_, _, hsw⟩
      · exact g1.trans g2
      · refine (g1.trans g2).trans ?_
        unfold switchCampaign at hsw
        split at hsw
        · cases hsw; exact Same.refl _ _
        · rw [updateHistory_insert] at hsw
          cases hsw
          exact write_same hb
    · unfold getReward at h
      simp only [hd] at h
      split at h
      · cases h; exact Same.refl _ _
      · rename_i hn
        have : d.rewardEras = 0 := by
          by_cases hz : d.rewardEras = 0
          · exact hz
          · exact absurd ⟨by omega, by omega, hz⟩ hreach
        rw [if_pos this] at h
        cases h; exact Same.refl _ _

end Verif.Payout
