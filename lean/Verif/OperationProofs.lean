import Verif.Operation
import Verif.BankExact
import Mathlib.Data.List.Perm.Basic
import Mathlib.Data.List.Nodup

/-
Lemmas for the operation pallet.
-/

namespace Verif.Operation

open Verif.UserPrivileges (Privilege)

theorem map_ok {α β : Type} {x : Except Err α} {f : α → β} {b : β} (h : x.map f = .ok b) :
    ∃ a, x = .ok a ∧ f a = b := by
  cases x with
  | error e => cases h
  | ok a => cases h; exact ⟨a, rfl, rfl⟩

theorem liftBank_ok {α : Type} {x : Except BankErr α} {a : α} (h : liftBank x = .ok a) : x = .ok a := by
  cases x with
  | error e => cases h
  | ok b => cases h; rfl

theorem step_cases (cfg : Cfg) (s : State) (op : Op) :
    (∃ r, body cfg s op = .ok r ∧ step cfg s op = r) ∨
    (∃ e, body cfg s op = .error e ∧ step cfg s op = (s, .failed e)) := by
  unfold step
  cases h : body cfg s op with
  | ok r => exact Or.inl ⟨r, rfl, rfl⟩
  | error e => exact Or.inr ⟨e, rfl, rfl⟩

/-! ### Order of the schedules -/

theorem insertByKey_perm (key : AccId → Nat) (e : AccId × Info) (l : List (AccId × Info)) :
    (insertByKey key e l).Perm (e :: l) := by
  induction l with
  | nil => exact List.Perm.refl _
  | cons x xs ih =>
    simp only [insertByKey]
    split
    · exact List.Perm.refl _
    · exact (List.Perm.cons x ih).trans (List.Perm.swap e x xs)

theorem sortByKey_perm (key : AccId → Nat) (l : List (AccId × Info)) : (sortByKey key l).Perm l := by
  induction l with
  | nil => exact List.Perm.refl _
  | cons e es ih => exact (insertByKey_perm key e _).trans (List.Perm.cons e ih)

/-! ### The loop -/

/-- Result of releasing the schedules of a list. -/
def releaseAll (day : Nat) (c : Scan) (l : List (AccId × Info)) : Scan :=
  l.foldl (fun c e => release day c e.1 e.2) c

/-- The loop releases a part of the list, in order. -/
theorem scan_shape (cfg : Cfg) (s : State) (day : Nat) (todo : List (AccId × Info)) : ∀ (c : Scan),
    ∃ l de lk, l.Sublist todo ∧
      (∀ e ∈ l, 0 < accrued day e.2 ∧ accrued day e.2 ≤ s.singleMax) ∧
      scan cfg s day todo c = { releaseAll day c l with dayEnd := de, lastKey := lk } := by
  induction todo with
  | nil => intro c; exact ⟨[], true, c.lastKey, List.Sublist.refl _, by simp, rfl⟩
  | cons x xs ih =>
    intro c
    obtain ⟨a, i⟩ := x
    simp only [scan]
    split
    · obtain ⟨l, de, lk, h1, h2, h3⟩ := ih c
      exact ⟨l, de, lk, h1.cons _, h2, h3⟩
    rename_i h0
    split
    · exact ⟨[], c.dayEnd, cfg.key a, List.nil_sublist _, by simp, rfl⟩
    rename_i hs
    have hone : ∀ e ∈ [(a, i)], 0 < accrued day e.2 ∧ accrued day e.2 ≤ s.singleMax := by
      intro e he
      rw [List.mem_singleton] at he
      subst he
      exact ⟨Nat.pos_of_ne_zero h0, Nat.not_lt.1 hs⟩
    have hsub : [(a, i)].Sublist ((a, i) :: xs) := List.Sublist.cons_cons _ (List.nil_sublist _)
    split
    · exact ⟨[(a, i)], true, cfg.key a, hsub, hone, rfl⟩
    split
    · exact ⟨[(a, i)], (release day c a i).dayEnd, cfg.key a, hsub, hone, rfl⟩
    · obtain ⟨l, de, lk, h1, h2, h3⟩ := ih (release day c a i)
      refine ⟨(a, i) :: l, de, lk, h1.cons_cons _, ?_, h3⟩
      intro e he
      rw [List.mem_cons] at he
      rcases he with rfl | he
      · exact hone _ (by simp)
      · exact h2 e he

/-- The amounts of a list of schedules. -/
def due (day : Nat) (l : List (AccId × Info)) : List (AccId × Balance) :=
  l.map fun e => (e.1, accrued day e.2)

theorem releaseAll_releases (day : Nat) (l : List (AccId × Info)) : ∀ c : Scan,
    (releaseAll day c l).releases.map (fun r => (r.acc, r.amount)) =
      c.releases.map (fun r => (r.acc, r.amount)) ++ due day l := by
  induction l with
  | nil => intro c; simp [releaseAll, due]
  | cons e es ih =>
    intro c
    have := ih (release day c e.1 e.2)
    simp only [releaseAll, List.foldl_cons] at this ⊢
    rw [this]
    simp [release, due]

theorem releaseAll_infos (day : Nat) (l : List (AccId × Info)) : ∀ (c : Scan) (a : AccId),
    (l.map Prod.fst).Nodup →
    (∀ i, (a, i) ∈ l → (releaseAll day c l).infos.get a = some { i with lastDay := day }) ∧
    (a ∉ l.map Prod.fst → (releaseAll day c l).infos.get a = c.infos.get a) := by
  induction l with
  | nil => intro c a _; exact ⟨by simp, fun _ => rfl⟩
  | cons e es ih =>
    intro c a hn
    rw [List.map_cons, List.nodup_cons] at hn
    have := ih (release day c e.1 e.2) a hn.2
    refine ⟨?_, ?_⟩
    · intro i hi
      rw [List.mem_cons] at hi
      rcases hi with hi | hi
      · subst hi
        show (releaseAll day (release day c a i) es).infos.get a = _
        rw [this.2 hn.1]
        simp [release]
      · exact this.1 i hi
    · intro ha
      simp only [List.map_cons, List.mem_cons, not_or] at ha
      show (releaseAll day (release day c e.1 e.2) es).infos.get a = _
      rw [this.2 ha.2]
      simp [release, FMap.get_insert_ne _ _ ha.1]

theorem releaseAll_removed (day : Nat) (l : List (AccId × Info)) : ∀ (c : Scan) (a : AccId),
    a ∈ (releaseAll day c l).removed ↔
      a ∈ c.removed ∨ ∃ i, (a, i) ∈ l ∧ i.days ≤ day - i.startDay := by
  induction l with
  | nil => intro c a; simp [releaseAll]
  | cons e es ih =>
    intro c a
    show a ∈ (releaseAll day (release day c e.1 e.2) es).removed ↔ _
    rw [ih]
    obtain ⟨x, j⟩ := e
    simp only [release, List.mem_cons, Prod.mk.injEq]
    constructor
    · rintro (h | ⟨i, hi, hd⟩)
      · split at h
        · rename_i hj
          rw [List.mem_append, List.mem_singleton] at h
          rcases h with h | h
          · exact Or.inl h
          · exact Or.inr ⟨j, Or.inl ⟨h, rfl⟩, hj⟩
        · exact Or.inl h
      · exact Or.inr ⟨i, Or.inr hi, hd⟩
    · rintro (h | ⟨i, ⟨rfl, rfl⟩ | hi, hd⟩)
      · left; split
        · exact List.mem_append_left _ h
        · exact h
      · left; rw [if_pos hd]; simp
      · exact Or.inr ⟨i, hi, hd⟩

theorem releaseAll_sums (day : Nat) (l : List (AccId × Info)) : ∀ c : Scan,
    (releaseAll day c l).daily = c.daily + ((due day l).map Prod.snd).sum ∧
    (releaseAll day c l).total = c.total + ((due day l).map Prod.snd).sum := by
  induction l with
  | nil => intro c; simp [releaseAll, due]
  | cons e es ih =>
    intro c
    obtain ⟨h1, h2⟩ := ih (release day c e.1 e.2)
    simp only [releaseAll, List.foldl_cons] at h1 h2 ⊢
    rw [h1, h2]
    simp only [release, due, List.map_cons, List.sum_cons]
    constructor <;> omega

/-- Balances after the releases. -/
theorem releaseAll_bank (day : Nat) (l : List (AccId × Info)) : ∀ (c : Scan), c.bank.Inv →
    (l.map Prod.fst).Nodup →
    (releaseAll day c l).bank.Inv ∧
    (∀ x, x ∉ l.map Prod.fst → (releaseAll day c l).bank.acct x = c.bank.acct x) ∧
    (∀ a i, (a, i) ∈ l →
      (releaseAll day c l).bank.free a = c.bank.free a + c.bank.minted a (accrued day i) ∧
      (releaseAll day c l).bank.reserved a = c.bank.reserved a) ∧
    (releaseAll day c l).releases = c.releases ++
      l.map (fun e => ⟨e.1, accrued day e.2, c.bank.minted e.1 (accrued day e.2)⟩) := by
  induction l with
  | nil => intro c h _; exact ⟨h, fun _ _ => rfl, by simp, by simp [releaseAll]⟩
  | cons e es ih =>
    intro c h hn
    rw [List.map_cons, List.nodup_cons] at hn
    have hb : (release day c e.1 e.2).bank = c.bank.depositCreating e.1 (accrued day e.2) := rfl
    have hi : (release day c e.1 e.2).bank.Inv := by rw [hb]; exact Bank.depositCreating_inv h _ _
    obtain ⟨h1, h2, h3, h4⟩ := ih (release day c e.1 e.2) hi hn.2
    have hother : ∀ x, x ≠ e.1 → ∀ v, (release day c e.1 e.2).bank.minted x v = c.bank.minted x v := by
      intro x hx v
      unfold Bank.minted
      rw [hb, (Bank.depositCreating_ne _ hx).2, Bank.depositCreating_ed]
    refine ⟨h1, ?_, ?_, ?_⟩
    · intro x hx
      simp only [List.map_cons, List.mem_cons, not_or] at hx
      show (releaseAll day (release day c e.1 e.2) es).bank.acct x = _
      rw [h2 x hx.2, hb, (Bank.depositCreating_ne _ hx.1).1]
    · intro a i hai
      show (releaseAll day (release day c e.1 e.2) es).bank.free a = _ ∧
        (releaseAll day (release day c e.1 e.2) es).bank.reserved a = _
      rw [List.mem_cons] at hai
      rcases hai with hai | hai
      · subst hai
        have := h2 a hn.1
        rw [hb] at this
        refine ⟨?_, ?_⟩
        · rw [Bank.free, this]; exact Bank.depositCreating_free h a _
        · rw [Bank.reserved, this]; exact Bank.depositCreating_reserved h a _
      · have hne : a ≠ e.1 := by
          intro heq
          exact hn.1 (heq ▸ List.mem_map.2 ⟨(a, i), hai, rfl⟩)
        obtain ⟨h5, h6⟩ := h3 a i hai
        rw [h5, h6, hother a hne]
        have := (Bank.depositCreating_ne (b := c.bank) (accrued day e.2) hne).1
        rw [← hb] at this
        exact ⟨by rw [Bank.free, this]; rfl, by rw [Bank.reserved, this]; rfl⟩
    · show (releaseAll day (release day c e.1 e.2) es).releases = _
      rw [h4]
      have hm : (release day c e.1 e.2).releases = c.releases ++
          [⟨e.1, accrued day e.2, c.bank.minted e.1 (accrued day e.2)⟩] := by
        simp only [release]
        rw [Bank.depositCreating_free h]
        simp
      rw [hm, List.append_assoc]
      congr 1
      simp only [List.map_cons, List.cons_append, List.nil_append, List.cons.injEq, true_and]
      apply List.map_congr_left
      intro x hx
      have hne : x.1 ≠ e.1 := by
        intro heq
        exact hn.1 (heq ▸ List.mem_map.2 ⟨x, hx, rfl⟩)
      rw [hother x.1 hne]

theorem foldl_erase_get {α : Type} (l : List AccId) : ∀ (m : FMap AccId α) (a : AccId),
    (l.foldl (fun m a => m.erase a) m).get a = if a ∈ l then none else m.get a := by
  induction l with
  | nil => intro m a; simp
  | cons x xs ih =>
    intro m a
    rw [List.foldl_cons, ih, FMap.get_erase]
    by_cases h1 : a = x
    · subst h1; simp
    · simp [h1]

/-- What `on_finalize` does when it is not the first block of a day: it releases a list of due
schedules. -/
structure Released (s s' : State) (rel : List Release) (l : List (AccId × Info)) : Prop where
  day : ¬ s.savedDay < s.today
  nodup : (l.map Prod.fst).Nodup
  mem : ∀ a i, (a, i) ∈ l → s.infos.get a = some i
  pos : ∀ e ∈ l, 0 < accrued s.today e.2 ∧ accrued s.today e.2 ≤ s.singleMax
  amounts : rel.map (fun r => (r.acc, r.amount)) = due s.today l
  infosIn : ∀ a i, (a, i) ∈ l → s'.infos.get a =
    if i.days ≤ s.today - i.startDay then none else some { i with lastDay := s.today }
  infosOut : ∀ a, a ∉ l.map Prod.fst → s'.infos.get a = s.infos.get a
  dailyIn : (s'.daily.get s.today).getD 0 = (s.daily.get s.today).getD 0 + ((due s.today l).map Prod.snd).sum
  dailyOut : ∀ d, d ≠ s.today → s'.daily.get d = s.daily.get d
  total : s'.totalRelease = s.totalRelease + ((due s.today l).map Prod.snd).sum
  bank : s.bank.Inv → s'.bank.Inv ∧
    (∀ x, x ∉ l.map Prod.fst → s'.bank.acct x = s.bank.acct x) ∧
    (∀ a i, (a, i) ∈ l → s'.bank.free a = s.bank.free a + s.bank.minted a (accrued s.today i) ∧
      s'.bank.reserved a = s.bank.reserved a) ∧
    rel = l.map (fun e => ⟨e.1, accrued s.today e.2, s.bank.minted e.1 (accrued s.today e.2)⟩)
  same : s'.now = s.now ∧ s'.savedDay = s.savedDay ∧ s'.singleMax = s.singleMax ∧
    s'.dailyMax = s.dailyMax

theorem finalize_released (cfg : Cfg) (s : State) (h : ¬ s.savedDay < s.today) :
    ∃ l, Released s (finalize cfg s).1 (finalize cfg s).2 l := by
  unfold finalize
  rw [if_neg h]
  unfold releaseStaking
  split
  · refine ⟨[], h, by simp, by simp, by simp, by simp [due], by simp, fun _ _ => rfl, by simp [due],
      fun _ _ => rfl, by simp [due], fun hb => ⟨hb, fun _ _ => rfl, by simp, by simp⟩, rfl, rfl, rfl, rfl⟩
  simp only
  generalize hc0 : (⟨s.bank, s.infos, s.totalRelease, (s.daily.get s.today).getD 0, 0, [], s.dayEnd,
    s.lastKey, []⟩ : Scan) = c0
  generalize htd : (sortByKey cfg.key s.infos.entries).filter (fun e => decide (s.lastKey < cfg.key e.1)) = todo
  obtain ⟨l, de, lk, hsub, hpos, heq⟩ := scan_shape cfg s s.today todo c0
  rw [heq]
  have hperm := sortByKey_perm cfg.key s.infos.entries
  have hsub2 : l.Sublist (sortByKey cfg.key s.infos.entries) := by
    refine hsub.trans ?_
    rw [← htd]
    exact List.filter_sublist
  have hnod : (l.map Prod.fst).Nodup := by
    refine List.Nodup.sublist (hsub2.map _) ?_
    exact (hperm.map Prod.fst).nodup_iff.2 s.infos.nodup
  have hmem : ∀ a i, (a, i) ∈ l → s.infos.get a = some i := by
    intro a i hi
    rw [← FMap.mem_entries_iff]
    exact hperm.mem_iff.1 (hsub2.subset hi)
  have hrm : ∀ a, a ∈ (releaseAll s.today c0 l).removed ↔
      ∃ i, (a, i) ∈ l ∧ i.days ≤ s.today - i.startDay := by
    intro a
    rw [releaseAll_removed]
    subst hc0
    simp
  refine ⟨l, h, hnod, hmem, hpos, ?_, ?_, ?_, ?_, ?_, ?_, ?_, rfl, rfl, rfl, rfl⟩
  · have := releaseAll_releases s.today l c0
    subst hc0
    simpa using this
  · intro a i hi
    simp only [foldl_erase_get]
    by_cases hd : i.days ≤ s.today - i.startDay
    · rw [if_pos ((hrm a).2 ⟨i, hi, hd⟩), if_pos hd]
    · rw [if_neg, if_neg hd]
      · exact (releaseAll_infos s.today l c0 a hnod).1 i hi
      · intro hr
        obtain ⟨j, hj, hd'⟩ := (hrm a).1 hr
        have h1 := hmem a i hi
        rw [hmem a j hj] at h1
        cases h1
        exact hd hd'
  · intro a ha
    simp only [foldl_erase_get]
    rw [if_neg]
    · rw [(releaseAll_infos s.today l c0 a hnod).2 ha]
      subst hc0; rfl
    · intro hr
      obtain ⟨i, hi, _⟩ := (hrm a).1 hr
      exact ha (List.mem_map.2 ⟨_, hi, rfl⟩)
  · simp only [FMap.get_insert_self, Option.getD_some]
    rw [(releaseAll_sums s.today l c0).1]
    subst hc0; rfl
  · intro d hd
    simp only [FMap.get_insert_ne _ _ hd]
  · simp only
    rw [(releaseAll_sums s.today l c0).2]
    subst hc0; rfl
  · intro hb
    have := releaseAll_bank s.today l c0 (by subst hc0; exact hb) hnod
    subst hc0
    simpa using this

theorem finalize_rollover (cfg : Cfg) (s : State) (h : s.savedDay < s.today) :
    finalize cfg s = ({ s with savedDay := s.today, dayEnd := false, lastKey := 0 }, []) := by
  unfold finalize
  rw [if_pos h]

/-- Daily sum and end-of-day mark in the loop. -/
theorem scan_daily (cfg : Cfg) (s : State) (day : Nat) (todo : List (AccId × Info)) : ∀ (c : Scan),
    (c.daily < s.dailyMax ∨ c.daily = 0) → 
    (scan cfg s day todo c).daily ≤ s.dailyMax + s.singleMax ∧
    ((scan cfg s day todo c).dayEnd = false →
      (scan cfg s day todo c).daily < s.dailyMax ∨ (scan cfg s day todo c).daily = 0) := by
  induction todo with
  | nil => intro c h; exact ⟨by simp only [scan]; omega, by simp [scan]⟩
  | cons x xs ih =>
    intro c h
    obtain ⟨a, i⟩ := x
    simp only [scan]
    split
    · exact ih c h
    split
    · exact ⟨by simp only; omega, fun _ => h⟩
    rename_i hs
    have hd : (release day c a i).daily = c.daily + accrued day i := rfl
    split
    · exact ⟨by simp only; omega, by simp⟩
    split
    · exact ⟨by simp only; omega, fun _ => Or.inl (by simp only; omega)⟩
    · exact ih _ (Or.inl (by omega))

theorem finalize_daily (cfg : Cfg) (s : State) (h : ¬ s.savedDay < s.today) (he : s.dayEnd = false)
    (hd : (s.daily.get s.today).getD 0 < s.dailyMax ∨ (s.daily.get s.today).getD 0 = 0) :
    ((finalize cfg s).1.daily.get s.today).getD 0 ≤ s.dailyMax + s.singleMax ∧
    ((finalize cfg s).1.dayEnd = false →
      ((finalize cfg s).1.daily.get s.today).getD 0 < s.dailyMax ∨
      ((finalize cfg s).1.daily.get s.today).getD 0 = 0) := by
  unfold finalize
  rw [if_neg h]
  unfold releaseStaking
  rw [if_neg (by simp [he])]
  simp only [FMap.get_insert_self, Option.getD_some]
  exact scan_daily cfg s s.today _ _ hd

theorem finalize_dayEnd (cfg : Cfg) (s : State) (h : ¬ s.savedDay < s.today) (he : s.dayEnd = true) :
    finalize cfg s = (s, []) := by
  unfold finalize
  rw [if_neg h]
  unfold releaseStaking
  rw [if_pos he]

/-- Sum over one block in the loop. -/
theorem scan_block (cfg : Cfg) (s : State) (day : Nat) (todo : List (AccId × Info)) : ∀ (c : Scan),
    c.block < s.singleMax ∨ c.block = 0 →
    (scan cfg s day todo c).daily ≤ c.daily + (2 * s.singleMax - c.block) := by
  induction todo with
  | nil => intro c h; simp only [scan]; omega
  | cons x xs ih =>
    intro c h
    obtain ⟨a, i⟩ := x
    simp only [scan]
    split
    · exact ih c h
    split
    · simp only; omega
    rename_i hs
    have hd : (release day c a i).daily = c.daily + accrued day i := rfl
    have hb : (release day c a i).block = c.block + accrued day i := rfl
    split
    · simp only; omega
    split
    · simp only; omega
    · have := ih (release day c a i) (Or.inl (by omega))
      omega

end Verif.Operation
