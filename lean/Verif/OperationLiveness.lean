import Verif.OperationProperties
import Mathlib.Data.List.Perm.Subperm

/-
Property C85: what is due is released on the same day, as long as the limits allow it.
-/

namespace Verif.Operation

/-! ### Specification -/

def isFinalize : Op → Bool
  | .finalize => true
  | _ => false

def isSetup : Op → Bool
  | .unstakingRelease _ _ _ _ _ => true
  | _ => false

/-- Number of blocks in a history. -/
def blocks (ops : List Op) : Nat := ops.countP isFinalize

/-- Number of schedules set up in a history. -/
def setups (ops : List Op) : Nat := ops.countP isSetup

/-! ### The loop -/

theorem insertByKey_sorted (key : AccId → Nat) (e : AccId × Info) (l : List (AccId × Info))
    (h : l.Pairwise (fun x y => key x.1 ≤ key y.1)) :
    (insertByKey key e l).Pairwise (fun x y => key x.1 ≤ key y.1) := by
  induction l with
  | nil => simp [insertByKey]
  | cons x xs ih =>
    rw [List.pairwise_cons] at h
    simp only [insertByKey]
    split
    · rename_i hlt
      rw [List.pairwise_cons]
      refine ⟨?_, List.pairwise_cons.2 h⟩
      intro y hy
      rw [List.mem_cons] at hy
      rcases hy with rfl | hy
      · omega
      · have := h.1 y hy; omega
    · rename_i hlt
      rw [List.pairwise_cons]
      refine ⟨?_, ih h.2⟩
      intro y hy
      have := (insertByKey_perm key e xs).mem_iff.1 hy
      rw [List.mem_cons] at this
      rcases this with rfl | hy
      · omega
      · exact h.1 y hy

theorem sortByKey_sorted (key : AccId → Nat) (l : List (AccId × Info)) :
    (sortByKey key l).Pairwise (fun x y => key x.1 ≤ key y.1) := by
  induction l with
  | nil => exact List.Pairwise.nil
  | cons e es ih => exact insertByKey_sorted key e _ ih

theorem scan_keeps (cfg : Cfg) (s : State) (day : Nat) (todo : List (AccId × Info)) : ∀ (c : Scan) (r : Release),
    r ∈ c.releases → r ∈ (scan cfg s day todo c).releases := by
  induction todo with
  | nil => intro c r h; exact h
  | cons x xs ih =>
    intro c r h
    obtain ⟨a, i⟩ := x
    have h' : r ∈ (release day c a i).releases := List.mem_append_left _ h
    simp only [scan]
    split
    · exact ih c r h
    split
    · exact h
    split
    · exact h'
    split
    · exact h'
    · exact ih _ r h'

/-- The loop pays a given due schedule, or stops at the daily maximum, or stops before it. -/
theorem scan_progress (cfg : Cfg) (s : State) (day : Nat) (a : AccId) (i : Info)
    (hpos : 0 < accrued day i) (hmax : accrued day i ≤ s.singleMax) (todo : List (AccId × Info)) :
    ∀ (c : Scan), todo.Pairwise (fun x y => cfg.key x.1 < cfg.key y.1) → (a, i) ∈ todo →
    let r := scan cfg s day todo c
    (∃ x ∈ r.releases, x.acc = a ∧ x.amount = accrued day i) ∨ s.dailyMax ≤ r.daily ∨
    (r.dayEnd = c.dayEnd ∧ ∃ e ∈ todo, r.lastKey = cfg.key e.1 ∧ cfg.key e.1 < cfg.key a) := by
  induction todo with
  | nil => intro c _ h; cases h
  | cons x xs ih =>
    intro c hp hm
    rw [List.pairwise_cons] at hp
    rw [List.mem_cons] at hm
    rcases hm with rfl | hm
    · left
      have hin : (⟨a, accrued day i, (c.bank.depositCreating a (accrued day i)).free a - c.bank.free a⟩ : Release)
          ∈ (release day c a i).releases := by simp [release]
      refine ⟨⟨a, accrued day i, (c.bank.depositCreating a (accrued day i)).free a - c.bank.free a⟩, ?_, rfl, rfl⟩
      simp only [scan]
      rw [if_neg (by omega), if_neg (by omega)]
      split
      · exact hin
      split
      · exact hin
      · exact scan_keeps cfg s day xs _ _ hin
    · obtain ⟨b, j⟩ := x
      have hlt := hp.1 _ hm
      simp only at hlt
      have lift : ∀ c', c'.dayEnd = c.dayEnd →
          ((∃ x ∈ (scan cfg s day xs c').releases, x.acc = a ∧ x.amount = accrued day i) ∨
            s.dailyMax ≤ (scan cfg s day xs c').daily ∨
            ((scan cfg s day xs c').dayEnd = c.dayEnd ∧
              ∃ e ∈ (b, j) :: xs, (scan cfg s day xs c').lastKey = cfg.key e.1 ∧ cfg.key e.1 < cfg.key a)) := by
        intro c' hc'
        rcases ih c' hp.2 hm with h | h | ⟨h1, e, he, h2⟩
        · exact Or.inl h
        · exact Or.inr (Or.inl h)
        · exact Or.inr (Or.inr ⟨h1.trans hc', e, List.mem_cons_of_mem _ he, h2⟩)
      simp only [scan]
      split
      · exact lift c rfl
      split
      · exact Or.inr (Or.inr ⟨rfl, (b, j), by simp, rfl, hlt⟩)
      split
      · rename_i hd; exact Or.inr (Or.inl hd)
      split
      · exact Or.inr (Or.inr ⟨rfl, (b, j), by simp, rfl, hlt⟩)
      · exact lift _ rfl

/-- Schedules the loop meets from where it stopped up to `a`. -/
def ahead (cfg : Cfg) (s : State) (a : AccId) : List AccId :=
  s.infos.keys.filter fun x => decide (s.lastKey < cfg.key x) && decide (cfg.key x ≤ cfg.key a)

theorem mem_ahead {cfg : Cfg} {s : State} {a x : AccId} :
    x ∈ ahead cfg s a ↔ x ∈ s.infos.keys ∧ s.lastKey < cfg.key x ∧ cfg.key x ≤ cfg.key a := by
  simp [ahead]

theorem ahead_nodup (cfg : Cfg) (s : State) (a : AccId) : (ahead cfg s a).Nodup :=
  List.Nodup.filter _ s.infos.nodup

theorem length_le {l l' : List AccId} (hn : l.Nodup) (h : ∀ x ∈ l, x ∈ l') : l.length ≤ l'.length :=
  (hn.subperm h).length_le

/-- A block of the day. -/
theorem finalize_progress (cfg : Cfg) (hinj : Function.Injective cfg.key) (s : State) (a : AccId) (i : Info)
    (hi : s.infos.get a = some i) (hday : ¬ s.savedDay < s.today) (he : s.dayEnd = false)
    (hk : s.lastKey < cfg.key a) (hpos : 0 < accrued s.today i) (hmax : accrued s.today i ≤ s.singleMax) :
    let r := finalize cfg s
    (∃ x ∈ r.2, x.acc = a ∧ x.amount = accrued s.today i) ∨ s.dailyMax ≤ (r.1.daily.get s.today).getD 0 ∨
    (r.1.dayEnd = false ∧ r.1.lastKey < cfg.key a ∧ r.1.infos.get a = some i ∧
      (ahead cfg r.1 a).length < (ahead cfg s a).length) := by
  intro r
  have hr : r = finalize cfg s := rfl
  obtain ⟨l, hl⟩ := finalize_released cfg s hday
  rw [← hr] at hl
  by_cases hrel : ∃ x ∈ r.2, x.acc = a ∧ x.amount = accrued s.today i
  · exact Or.inl hrel
  right
  have hout : a ∉ l.map Prod.fst := by
    intro h
    obtain ⟨e, hel, rfl⟩ := List.mem_map.1 h
    have h1 := hl.mem e.1 e.2 hel
    rw [hi] at h1
    have h2 : (e.1, accrued s.today e.2) ∈ due s.today l := List.mem_map.2 ⟨e, hel, rfl⟩
    rw [← hl.amounts] at h2
    obtain ⟨x, hx, heq⟩ := List.mem_map.1 h2
    simp only [Prod.mk.injEq] at heq
    cases h1
    exact hrel ⟨x, hx, heq.1, heq.2⟩
  have hinf := hl.infosOut a hout
  have hkeys : ∀ x ∈ r.1.infos.keys, x ∈ s.infos.keys := by
    intro x hx
    rw [FMap.mem_keys_iff] at hx ⊢
    by_cases hxl : x ∈ l.map Prod.fst
    · obtain ⟨e, hel, rfl⟩ := List.mem_map.1 hxl
      exact ⟨e.2, hl.mem _ _ hel⟩
    · rw [hl.infosOut x hxl] at hx; exact hx
  generalize htd : (sortByKey cfg.key s.infos.entries).filter (fun e => decide (s.lastKey < cfg.key e.1)) = todo
  have hperm := sortByKey_perm cfg.key s.infos.entries
  have hsorted : todo.Pairwise (fun x y => cfg.key x.1 < cfg.key y.1) := by
    rw [← htd]
    refine List.Pairwise.sublist List.filter_sublist ?_
    have h1 := sortByKey_sorted cfg.key s.infos.entries
    have h2 : (sortByKey cfg.key s.infos.entries).Pairwise (fun x y => x.1 ≠ y.1) := by
      have := (hperm.map Prod.fst).nodup_iff.2 s.infos.nodup
      exact List.pairwise_map.1 this
    refine (h1.and h2).imp ?_
    rintro x y ⟨h3, h4⟩
    exact Nat.lt_of_le_of_ne h3 (fun h => h4 (hinj h))
  have hmem : (a, i) ∈ todo := by
    rw [← htd, List.mem_filter]
    exact ⟨hperm.mem_iff.2 ((FMap.mem_entries_iff _ _ _).2 hi), by simpa using hk⟩
  have hp := scan_progress cfg s s.today a i hpos hmax todo
    ⟨s.bank, s.infos, s.totalRelease, (s.daily.get s.today).getD 0, 0, [], s.dayEnd, s.lastKey, []⟩ hsorted hmem
  generalize hc : scan cfg s s.today todo
    ⟨s.bank, s.infos, s.totalRelease, (s.daily.get s.today).getD 0, 0, [], s.dayEnd, s.lastKey, []⟩ = c at hp
  have hfin : r.2 = c.releases ∧ (r.1.daily.get s.today).getD 0 = c.daily ∧ r.1.dayEnd = c.dayEnd ∧
      r.1.lastKey = c.lastKey := by
    rw [hr]
    unfold finalize
    rw [if_neg hday]
    unfold releaseStaking
    simp only [he, Bool.false_eq_true, if_false, htd]
    rw [he] at hc
    rw [hc]
    exact ⟨rfl, by simp, rfl, rfl⟩
  rcases hp with h | h | ⟨h1, e, he1, h2, h3⟩
  · rw [← hfin.1] at h; exact absurd h hrel
  · left; rw [hfin.2.1]; exact h
  · right
    have hlk : r.1.lastKey = cfg.key e.1 := hfin.2.2.2.trans h2
    refine ⟨by rw [hfin.2.2.1, h1, he], by omega, by rw [hinf, hi], ?_⟩
    rw [← htd, List.mem_filter] at he1
    have hes : e.1 ∈ s.infos.keys := by
      rw [FMap.mem_keys_iff]
      exact ⟨e.2, (FMap.mem_entries_iff _ _ _).1 (hperm.mem_iff.1 he1.1)⟩
    have hlt : s.lastKey < cfg.key e.1 := by simpa using he1.2
    have hn : (e.1 :: ahead cfg r.1 a).Nodup := by
      rw [List.nodup_cons]
      refine ⟨?_, ahead_nodup _ _ _⟩
      intro hm
      rw [mem_ahead] at hm
      omega
    have := length_le (l' := ahead cfg s a) hn (by
      intro x hx
      rw [List.mem_cons] at hx
      rw [mem_ahead]
      rcases hx with rfl | hx
      · exact ⟨hes, hlt, Nat.le_of_lt h3⟩
      · rw [mem_ahead] at hx
        exact ⟨hkeys x hx.1, by omega, hx.2.2⟩)
    simp only [List.length_cons] at this
    omega

/-! ### Histories -/

/-- What calls other than `on_finalize` do to the data of the loop. -/
structure Frame (s s' : State) (a : AccId) (op : Op) : Prop where
  info : s'.infos.get a = s.infos.get a
  lastKey : s'.lastKey = s.lastKey
  dayEnd : s'.dayEnd = s.dayEnd
  savedDay : s'.savedDay = s.savedDay
  single : s'.singleMax = s.singleMax
  daily : s'.dailyMax = s.dailyMax
  record : s'.daily = s.daily
  today : s.today ≤ s'.today
  keys : ∃ K : List AccId, K.length ≤ [op].countP isSetup ∧ ∀ x ∈ s'.infos.keys, x ∈ K ∨ x ∈ s.infos.keys

theorem step_frame (cfg : Cfg) (s : State) (a : AccId) (op : Op) (h0 : op ≠ .finalize)
    (h1 : ∀ x d, op ≠ .setLimits true x d) (h2 : ∀ x d m t, op ≠ .unstakingRelease x a d m t)
    (h3 : ∀ x l, op = .removeInfos x l → a ∉ l) : Frame s (step cfg s op).1 a op := by
  have same : ∀ s' : State, s'.infos = s.infos → s'.lastKey = s.lastKey → s'.dayEnd = s.dayEnd →
      s'.savedDay = s.savedDay → s'.singleMax = s.singleMax → s'.dailyMax = s.dailyMax →
      s'.daily = s.daily → s.today ≤ s'.today → Frame s s' a op :=
    fun s' e1 e2 e3 e4 e5 e6 e7 e8 =>
      ⟨by rw [e1], e2, e3, e4, e5, e6, e7, e8, [], Nat.zero_le _, fun x hx => Or.inr (by rw [← e1]; exact hx)⟩
  rcases step_cases cfg s op with ⟨r, hb, hs⟩ | ⟨e, hb, hs⟩
  swap
  · rw [hs]; exact same s rfl rfl rfl rfl rfl rfl rfl (Nat.le_refl _)
  rw [hs]
  cases op <;> simp only [body] at hb
  case finalize => exact absurd rfl h0
  case applyBridge => cases hb; exact same _ rfl rfl rfl rfl rfl rfl rfl (Nat.le_refl _)
  case external => cases hb; exact same _ rfl rfl rfl rfl rfl rfl rfl (today_mono _ _)
  all_goals
    obtain ⟨s', hr, hs'⟩ := map_ok hb
    rw [← hs']
    show Frame s s' a _
  case unstakingRelease x b d m t =>
    rw [(unstakingRelease_ok hr).2.2.2.2.2]
    have hne : b ≠ a := fun e => h2 x d m t (by rw [e])
    refine ⟨FMap.get_insert_ne _ _ (Ne.symm hne), rfl, rfl, rfl, rfl, rfl, rfl, Nat.le_refl _, [b],
      Nat.le_refl _, ?_⟩
    intro y hy
    rw [FMap.mem_keys_iff] at hy
    by_cases hyb : y = b
    · left; simp [hyb]
    · right
      simp only [FMap.get_insert_ne _ _ hyb] at hy
      exact (FMap.mem_keys_iff _ _).2 hy
  case removeInfos x l =>
    rw [removeInfos_ok hr]
    have hal := h3 x l rfl
    refine ⟨by simp only [foldl_erase_get, hal, if_false], rfl, rfl, rfl, rfl, rfl, rfl, Nat.le_refl _, [],
      Nat.zero_le _, ?_⟩
    intro y hy
    right
    rw [FMap.mem_keys_iff] at hy ⊢
    simp only [foldl_erase_get] at hy
    split at hy
    · obtain ⟨_, h⟩ := hy; cases h
    · exact hy
  case setLimits root x d =>
    unfold setLimits at hr
    cases root with
    | true => exact absurd rfl (h1 x d)
    | false => cases hr
  case forceRemoveLock =>
    unfold forceRemoveLock at hr
    split at hr <;> cases hr
    exact same _ rfl rfl rfl rfl rfl rfl rfl (Nat.le_refl _)
  case forceReserve =>
    unfold forceReserve at hr
    split at hr
    · cases hr
    · obtain ⟨b, _, rfl⟩ := map_ok hr
      exact same _ rfl rfl rfl rfl rfl rfl rfl (Nat.le_refl _)
  case burnForEzc =>
    unfold burnForEzc at hr
    split at hr
    · cases hr
    · obtain ⟨b, _, rfl⟩ := map_ok hr
      exact same _ rfl rfl rfl rfl rfl rfl rfl (Nat.le_refl _)
  case setFund =>
    unfold setFund at hr
    split at hr <;> cases hr
    exact same _ rfl rfl rfl rfl rfl rfl rfl (Nat.le_refl _)
  case bridgeOut =>
    unfold bridgeOut at hr
    split at hr
    · cases hr
    split at hr
    · cases hr
    · obtain ⟨b, _, rfl⟩ := map_ok hr
      exact same _ rfl rfl rfl rfl rfl rfl rfl (Nat.le_refl _)
  case bridgeIn =>
    unfold bridgeIn at hr
    split at hr
    · cases hr
    split at hr
    · cases hr
    · obtain ⟨b, _, rfl⟩ := map_ok hr
      exact same _ rfl rfl rfl rfl rfl rfl rfl (Nat.le_refl _)
  case unlockAssets =>
    unfold unlockAssets at hr
    split at hr
    · cases hr
    · obtain ⟨b, _, rfl⟩ := map_ok hr
      exact same _ rfl rfl rfl rfl rfl rfl rfl (Nat.le_refl _)

theorem finalize_today (cfg : Cfg) (s : State) : (finalize cfg s).1.today = s.today := by
  by_cases hd : s.savedDay < s.today
  · unfold finalize; rw [if_pos hd]; rfl
  · obtain ⟨l, hl⟩ := finalize_released cfg s hd
    unfold State.today; rw [hl.same.1]

/-- Days do not go back, and what was released on a day stays recorded. -/
theorem step_mono (cfg : Cfg) (s : State) (op : Op) (D : Nat) :
    s.today ≤ (step cfg s op).1.today ∧
    (s.daily.get D).getD 0 ≤ ((step cfg s op).1.daily.get D).getD 0 := by
  rcases step_shape cfg s op with h | ⟨rfl, h⟩ | ⟨x, a, d, m, t, rfl, h, _⟩ | ⟨x, l, rfl, h⟩ | ⟨x, d, rfl, h⟩ |
    ⟨dt, b, p, k, rfl, h⟩
  · unfold State.today; rw [h.daily, h.now]; exact ⟨Nat.le_refl _, Nat.le_refl _⟩
  · rw [h]
    refine ⟨Nat.le_of_eq (finalize_today cfg s).symm, ?_⟩
    by_cases hd : s.savedDay < s.today
    · unfold finalize; rw [if_pos hd]; exact Nat.le_refl _
    · obtain ⟨l, hl⟩ := finalize_released cfg s hd
      by_cases hD : D = s.today
      · subst hD
        have := hl.dailyIn
        simp only at this ⊢
        omega
      · simp only; rw [hl.dailyOut D hD]; exact Nat.le_refl _
  · rw [(unstakingRelease_ok h).2.2.2.2.2]; exact ⟨Nat.le_refl _, Nat.le_refl _⟩
  · rw [removeInfos_ok h]; exact ⟨Nat.le_refl _, Nat.le_refl _⟩
  · rw [h]; exact ⟨Nat.le_refl _, Nat.le_refl _⟩
  · rw [h]; exact ⟨today_mono _ _, Nat.le_refl _⟩

theorem run_mono (cfg : Cfg) (D : Nat) (ops : List Op) : ∀ s : State,
    s.today ≤ (run cfg s ops).1.today ∧
    (s.daily.get D).getD 0 ≤ ((run cfg s ops).1.daily.get D).getD 0 := by
  induction ops with
  | nil => intro s; exact ⟨Nat.le_refl _, Nat.le_refl _⟩
  | cons op ops ih =>
    intro s
    have h1 := step_mono cfg s op D
    have h2 := ih (step cfg s op).1
    exact ⟨Nat.le_trans h1.1 h2.1, Nat.le_trans h1.2 h2.2⟩

/-- Blocks still needed, at most, until the loop has dealt with `a`. -/
def need (cfg : Cfg) (s : State) (a : AccId) : Nat :=
  if s.savedDay < s.today then s.infos.keys.length + 1 else (ahead cfg s a).length

theorem run_progress (cfg : Cfg) (hinj : Function.Injective cfg.key) (hkey : ∀ x, 0 < cfg.key x) (a : AccId)
    (i : Info) (D : Nat) (single daily : Balance) (hpos : 0 < accrued D i) (hmax : accrued D i ≤ single)
    (ops : List Op) : ∀ s : State,
    s.infos.get a = some i → s.today = D → s.singleMax = single → s.dailyMax = daily →
    (¬ s.savedDay < D → s.dayEnd = false ∧ s.lastKey < cfg.key a) →
    (run cfg s ops).1.today = D →
    (∀ x d, Op.setLimits true x d ∉ ops) → (∀ x d m t, Op.unstakingRelease x a d m t ∉ ops) →
    (∀ x l, Op.removeInfos x l ∈ ops → a ∉ l) →
    need cfg s a + setups ops + 1 ≤ blocks ops →
    (∃ s' l r, (s', Op.finalize, Out.released l) ∈ (run cfg s ops).2 ∧ r ∈ l ∧ r.acc = a ∧
      r.amount = accrued D i) ∨
    daily ≤ ((run cfg s ops).1.daily.get D).getD 0 := by
  induction ops with
  | nil => intro s _ _ _ _ _ _ _ _ _ hn; simp [blocks] at hn
  | cons op ops ih =>
    intro s hi hD hs hd hfresh hend h1 h2 h3 hn
    have hend' : (run cfg (step cfg s op).1 ops).1.today = D := hend
    have hmid : (step cfg s op).1.today = D := by
      have a1 := (step_mono cfg s op D).1
      have a2 := (run_mono cfg D ops (step cfg s op).1).1
      omega
    have lift : ((∃ s' l r, (s', Op.finalize, Out.released l) ∈ (run cfg (step cfg s op).1 ops).2 ∧ r ∈ l ∧
        r.acc = a ∧ r.amount = accrued D i) ∨ daily ≤ ((run cfg (step cfg s op).1 ops).1.daily.get D).getD 0) →
        ((∃ s' l r, (s', Op.finalize, Out.released l) ∈ (run cfg s (op :: ops)).2 ∧ r ∈ l ∧ r.acc = a ∧
          r.amount = accrued D i) ∨ daily ≤ ((run cfg s (op :: ops)).1.daily.get D).getD 0) := by
      rintro (⟨s', l, r, hm, hr⟩ | h)
      · exact Or.inl ⟨s', l, r, List.mem_cons_of_mem _ hm, hr⟩
      · exact Or.inr h
    have h1' : ∀ x d, Op.setLimits true x d ∉ ops := fun x d hm => h1 x d (List.mem_cons_of_mem _ hm)
    have h2' : ∀ x d m t, Op.unstakingRelease x a d m t ∉ ops :=
      fun x d m t hm => h2 x d m t (List.mem_cons_of_mem _ hm)
    have h3' : ∀ x l, Op.removeInfos x l ∈ ops → a ∉ l := fun x l hm => h3 x l (List.mem_cons_of_mem _ hm)
    by_cases hop : op = .finalize
    · subst hop
      have hbl : blocks (Op.finalize :: ops) = blocks ops + 1 := List.countP_cons_of_pos rfl
      have hst : setups (Op.finalize :: ops) = setups ops := List.countP_cons_of_neg (by simp [isSetup])
      rw [hbl, hst] at hn
      by_cases hday : s.savedDay < s.today
      · have hfe : (step cfg s .finalize).1 = { s with savedDay := s.today, dayEnd := false, lastKey := 0 } := by
          show (finalize cfg s).1 = _
          unfold finalize; rw [if_pos hday]
        refine lift (ih _ ?_ hmid ?_ ?_ ?_ hend' h1' h2' h3' ?_)
        · rw [hfe]; exact hi
        · rw [hfe]; exact hs
        · rw [hfe]; exact hd
        · intro _; rw [hfe]; exact ⟨rfl, hkey a⟩
        · have : need cfg (step cfg s .finalize).1 a ≤ s.infos.keys.length := by
            unfold need
            rw [hmid, hfe]
            simp only [hD, Nat.lt_irrefl, if_false]
            exact List.length_filter_le _ _
          unfold need at hn
          rw [if_pos hday] at hn
          omega
      · rw [hD] at hday
        obtain ⟨he, hk⟩ := hfresh hday
        have hp := finalize_progress cfg hinj s a i hi (by rw [hD]; exact hday) he hk (by rw [hD]; exact hpos)
          (by rw [hD, hs]; exact hmax)
        rw [hD] at hp
        obtain ⟨l, hl⟩ := finalize_released cfg s (by rw [hD]; exact hday)
        rcases hp with ⟨x, hx, hx1, hx2⟩ | hp | ⟨p1, p2, p3, p4⟩
        · exact Or.inl ⟨s, (finalize cfg s).2, x, by simp [run, step, body], hx, hx1, hx2⟩
        · right
          have := (run_mono cfg D ops (step cfg s .finalize).1).2
          rw [hd] at hp
          exact Nat.le_trans hp this
        · refine lift (ih _ p3 hmid ?_ ?_ ?_ hend' h1' h2' h3' ?_)
          · exact hl.same.2.2.1.trans hs
          · exact hl.same.2.2.2.trans hd
          · intro _; exact ⟨p1, p2⟩
          · have e1 : need cfg s a = (ahead cfg s a).length := by
              unfold need; rw [hD, if_neg hday]
            have e2 : need cfg (step cfg s .finalize).1 a = (ahead cfg (finalize cfg s).1 a).length := by
              unfold need
              rw [hmid, if_neg]
              · rfl
              · have : (step cfg s .finalize).1.savedDay = s.savedDay := hl.same.2.1
                rw [this]; exact hday
            omega
    · have hf := step_frame cfg s a op hop (fun x d e => h1 x d (by rw [e]; simp))
        (fun x d m t e => h2 x d m t (by rw [e]; simp)) (fun x l e => h3 x l (by rw [e]; simp))
      have hbl : blocks (op :: ops) = blocks ops := by
        cases op <;> first | exact absurd rfl hop | simp [blocks, isFinalize]
      have hst : setups (op :: ops) = [op].countP isSetup + setups ops := by
        rw [setups, ← List.singleton_append, List.countP_append]; rfl
      rw [hbl, hst] at hn
      obtain ⟨K, hK, hKx⟩ := hf.keys
      refine lift (ih _ (hf.info.trans hi) hmid (hf.single.trans hs) (hf.daily.trans hd) ?_ hend' h1' h2' h3' ?_)
      · intro hh
        rw [hf.savedDay] at hh
        rw [hf.dayEnd, hf.lastKey]
        exact hfresh hh
      · have : need cfg (step cfg s op).1 a ≤ need cfg s a + K.length := by
          unfold need
          rw [hmid, hf.savedDay, hD]
          split
          · have := length_le (l := (step cfg s op).1.infos.keys) (l' := K ++ s.infos.keys)
              (step cfg s op).1.infos.nodup (fun x hx => List.mem_append.2 (hKx x hx))
            rw [List.length_append] at this
            omega
          · have := length_le (l := ahead cfg (step cfg s op).1 a) (l' := K ++ ahead cfg s a)
              (ahead_nodup _ _ _) (by
                intro x hx
                rw [mem_ahead, hf.lastKey] at hx
                rw [List.mem_append, mem_ahead]
                rcases hKx x hx.1 with h | h
                · exact Or.inl h
                · exact Or.inr ⟨h, hx.2⟩)
            rw [List.length_append] at this
            omega
        omega

/-- **C85**. On a new day, let something be due to account `a`, not more than the single maximum. If
the day has at least as many blocks as there are schedules (those set up on that day included) plus
two, then `a` gets exactly what is due on that day, unless the daily maximum has been released;
provided the limits and the schedule of `a` are left alone on that day. (The order of storage keys is
one-to-one.) -/
theorem C85_released_same_day (cfg : Cfg) (hinj : Function.Injective cfg.key) (hkey : ∀ x, 0 < cfg.key x)
    (s : State) (a : AccId) (i : Info) (hi : s.infos.get a = some i) (hnew : s.savedDay < s.today)
    (hpos : 0 < i.perDay * (s.today - i.lastDay)) (hmax : i.perDay * (s.today - i.lastDay) ≤ s.singleMax)
    (ops : List Op) (hday : (run cfg s ops).1.today = s.today)
    (h1 : ∀ x d, Op.setLimits true x d ∉ ops) (h2 : ∀ x d m t, Op.unstakingRelease x a d m t ∉ ops)
    (h3 : ∀ x l, Op.removeInfos x l ∈ ops → a ∉ l)
    (hn : s.infos.keys.length + setups ops + 2 ≤ blocks ops) :
    (∃ s' l r, (s', Op.finalize, Out.released l) ∈ (run cfg s ops).2 ∧ r ∈ l ∧ r.acc = a ∧
      r.amount = i.perDay * (s.today - i.lastDay)) ∨
    s.dailyMax ≤ ((run cfg s ops).1.daily.get s.today).getD 0 := by
  refine run_progress cfg hinj hkey a i s.today s.singleMax s.dailyMax hpos hmax ops s hi rfl rfl rfl
    (fun h => absurd hnew h) hday h1 h2 h3 ?_
  unfold need
  rw [if_pos hnew]
  omega

/-- Three schedules, one of which is over the single maximum and holds up a block; the last one gets
its 30 within five blocks. -/
example :
    let s := (run exCfg (genesis exBank 1000 100) [nextDay exBank, .finalize,
      .unstakingRelease 7 1 3 86400000 180, .unstakingRelease 7 2 2 172800000 160,
      .unstakingRelease 7 3 3 172800000 90, nextDay exBank, nextDay exBank]).1
    let r := run exCfg s [.finalize, .finalize, .burnForEzc 1 60, .finalize, .finalize, .finalize]
    s.infos.keys.length = 3 ∧ s.savedDay < s.today ∧ r.1.today = s.today ∧
    (r.2.map fun e => match e.2.2 with | .released l => l.map fun r => (r.acc, r.amount) | _ => []) =
      [[], [], [], [(2, 80), (3, 30)], [], []] := by
  decide +kernel

end Verif.Operation
