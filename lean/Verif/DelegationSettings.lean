import Verif.DelegationLaw

/-
C93, settings: the settings of root stay until root changes them.
-/

namespace Verif.Delegation

open Verif

/-- The settings: validator rewards of an era, number of validators wanted and needed, white list, length of the
history. -/
def settings (s : State) : Balance × Nat × Nat × List AccId × Nat :=
  (s.eraReward, s.validatorCount, s.minValidators, s.whitelist, s.historyDepth)

/-- The settings after a call. -/
def configured (old : Balance × Nat × Nat × List AccId × Nat) : Op → Balance × Nat × Nat × List AccId × Nat
  | .configure reward count least whitelist depth => (reward, count, least, whitelist, depth)
  | _ => old

theorem settings_undelegates (ds : List AccId) : ∀ s : State, settings (ds.foldl undelegateOf s) = settings s := by
  have h1 : ∀ (s : State) (d : AccId), settings (undelegateOf s d) = settings s := by
    intro s d
    unfold undelegateOf
    split
    · rfl
    · split
      · rfl
      · simp only
        split <;> rfl
  induction ds with
  | nil => intro s; rfl
  | cons d ds ih => intro s; rw [List.foldl_cons, ih, h1]

theorem settings_doDelegate {cfg : Cfg} {s t : State} {d : AccId} {vs : List AccId} (h : doDelegate cfg s d vs true = .ok t) :
    settings t = settings s := by
  unfold doDelegate at h
  simp only [Bool.true_eq_false, if_false] at h
  cases hd : s.delegators.get d with
  | none => rw [hd] at h; cases h; rfl
  | some x => rw [hd] at h; cases h; rfl

theorem settings_newEra (s : State) (order : List AccId) : settings (newEra s order).1 = settings s := by
  have h1 : settings (enterEra s (nextEra s)) = settings s := by unfold enterEra; simp only; split <;> rfl
  have h2 : ∀ (u : State) (l : Option (List AccId)) (e : Nat), settings (storeElected u e l) = settings u := by
    intro u l e; cases l <;> rfl
  have h3 : ∀ (u : State) (e : Nat), settings (elect u e order).1 = settings u := by
    intro u e; unfold elect; simp only; split <;> rfl
  unfold newEra
  simp only
  rw [h2, h3, h1]

theorem settings_payEachValidator (cfg : Cfg) (p : Points) (v : Balance) (vs : List AccId) : ∀ (s : State) (t : Balance),
    settings (payEachValidator cfg p v vs s t).1 = settings s := by
  induction vs with
  | nil => intro s t; rfl
  | cons x vs ih =>
    intro s t
    unfold payEachValidator
    split
    · exact ih s t
    · rw [ih]; rfl

theorem settings_payLoop (cfg : Cfg) (era : Nat) (reward : AccId → Nat → Nat → Option Balance) : ∀ (n : Nat) (l : Loop),
    settings (payLoop cfg era reward n l).s = settings l.s := by
  have h1 : ∀ (s : State) (d : Delegator) (pool : Balance), settings (payDelegator s d era pool reward).1 = settings s := by
    intro s d pool
    have hs : ∀ t : State, settings (settle t d era) = settings t := by
      intro t; unfold settle; split <;> rfl
    unfold payDelegator
    simp only
    split
    · rfl
    · rw [hs]
      split <;> rfl
  have h2 : ∀ (s : State) (d : AccId) (v p : Balance), settings (payReferer s d v p).1 = settings s := by
    intro s d v p
    unfold payReferer
    split
    · rfl
    · split <;> rfl
  intro n
  induction n with
  | zero => intro l; rfl
  | succ n ih =>
    intro l
    unfold payLoop
    split
    · rfl
    · split
      · rfl
      · simp only
        split
        · exact h1 _ _ _
        · split
          · exact (h2 _ _ _ _).trans (h1 _ _ _)
          · exact (ih _).trans ((h2 _ _ _ _).trans (h1 _ _ _))

theorem settings_onBlock (cfg : Cfg) (s : State) (r : AccId → Nat → Nat → Option Balance) : settings (onBlock cfg s r).1 = settings s := by
  unfold onBlock
  simp only
  split
  · rfl
  split
  · rfl
  unfold payDelegators
  split
  · rfl
  · exact settings_payLoop cfg _ r s.perBlock ⟨{ s with block := s.block + 1 }, _, s.lastKey, true, []⟩

theorem settings_step (cfg : Cfg) (s : State) (op : Op) : settings (step cfg s op).1 = configured (settings s) op := by
  unfold step
  split
  case h_2 e he =>
    cases op with
    | configure e c m w d => cases he
    | _ => rfl
  case h_1 r hb =>
    cases op with
    | delegate d vs p =>
      obtain ⟨t, hd, rfl⟩ := map_ok hb
      exact settings_doDelegate (doDelegate_pass (delegate_do hd))
    | delegateAny d o p =>
      obtain ⟨t, hd, rfl⟩ := map_ok hb
      unfold delegateAny at hd
      split at hd
      · cases hd
      · exact settings_doDelegate (doDelegate_pass hd)
    | undelegate d =>
      obtain ⟨t, hd, rfl⟩ := map_ok hb
      unfold undelegate at hd
      split at hd
      · cases hd
      · cases hd; exact settings_undelegates [d] s
    | forceUndelegate r ds =>
      simp only [body] at hb
      split at hb
      · cases hb
      · cases hb; exact settings_undelegates ds s
    | forceUnstaking k d =>
      simp only [body] at hb
      split at hb
      · cases hb
      · cases hb; exact settings_undelegates [d] s
    | setReferer k a r =>
      obtain ⟨t, hd, rfl⟩ := map_ok hb
      unfold setReferer at hd
      split at hd; · cases hd
      split at hd; · cases hd
      cases hd; rfl
    | unsetReferer k a =>
      obtain ⟨t, hd, rfl⟩ := map_ok hb
      unfold unsetReferer at hd
      split at hd; · cases hd
      cases hd; rfl
    | blackList k a e =>
      simp only [body] at hb
      split at hb
      · cases hb
      · cases hb; rfl
    | npowMint k t v =>
      obtain ⟨t, hd, rfl⟩ := map_ok hb
      unfold npowMint at hd
      split at hd; · cases hd
      split at hd; · cases hd
      cases hd; rfl
    | compensate k l d r p =>
      obtain ⟨t, hd, rfl⟩ := map_ok hb
      unfold compensate at hd
      split at hd; · cases hd
      split at hd; · cases hd
      cases hd; rfl
    | increasePool r v =>
      obtain ⟨t, hd, rfl⟩ := map_ok hb
      unfold increasePool at hd
      split at hd; · cases hd
      cases hd; rfl
    | configure e c m w d => cases hb; rfl
    | block r => cases hb; exact settings_onBlock cfg s r
    | endEra e =>
      cases hb
      show settings (payValidators cfg s e) = settings s
      unfold payValidators
      split
      · rfl
      · exact settings_payEachValidator cfg _ _ _ s 0
    | newEra o => cases hb; exact settings_newEra s o
    | addPoints e v n => cases hb; rfl
    | ledger op => cases hb; rfl

/-- C93, settings: after every history the settings are those made last. -/
theorem C93_settings (cfg : Cfg) (bank : Bank) (m : Balance) (ops : List Op) :
    settings (run cfg (genesis bank m) ops).1 = ops.foldl configured (0, 0, 0, [], 84) := by
  have key : ∀ (ops : List Op) (s : State), settings (run cfg s ops).1 = ops.foldl configured (settings s) := by
    intro ops
    induction ops with
    | nil => intro s; rfl
    | cons op ops ih =>
      intro s
      show settings (run cfg (step cfg s op).1 ops).1 = _
      rw [ih, settings_step]
      rfl
  exact key ops _

example : settings (run exCfg (genesis exBank 10) (exStart ++ [.configure 100 3 1 [7] 84, .undelegate 3])).1 = (100, 3, 1, [7], 84) := by
  decide +kernel

end Verif.Delegation
