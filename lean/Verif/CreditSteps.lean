import Verif.CreditFrame

/-
Every credit operation changes the two credit maps by a few elementary writes.
-/

namespace Verif.Credit

variable {lv : Prop}

/-- Elementary changes of the credit maps that remove nothing. -/
inductive Soft (era : Nat) : Core → Core → Prop
  | refl (c : Core) : Soft era c c
  | write (c : Core) (a : AccId) (d : Data) : Soft era c (writeCore c a d era)
  | init (c : Core) (a : AccId) (d : Data) (h : c.userCredit.get a = some d) :
      Soft era c (initHistory c a d era)
  | modify (c c' : Core) (a : AccId) (e : Nat) (h : forceModifyHistory c a e = .ok c') : Soft era c c'
  | trans {c c' c'' : Core} : Soft era c c' → Soft era c' c'' → Soft era c c''

/-- The record and the history of `a` removed. -/
def eraseCore (c : Core) (a : AccId) : Core :=
  { c with userCredit := c.userCredit.erase a, history := c.history.erase a }

theorem pushHistory_ne_nil {h : List (Nat × Data)} (hn : h ≠ []) (era : Nat) (d : Data) :
    pushHistory h era d ≠ [] := by
  unfold pushHistory
  split
  · exact hn
  · split <;> simp

theorem Soft.kept {era : Nat} {c c' : Core} (h : Soft era c c') (a : AccId)
    (hn : historyOf c a ≠ []) : historyOf c' a ≠ [] := by
  induction h with
  | refl c => exact hn
  | write c b d =>
    by_cases hb : a = b
    · subst hb
      rw [historyOf_writeCore]
      split
      · exact hn
      · exact pushHistory_ne_nil hn _ _
    · have : historyOf (writeCore c b d era) a = historyOf c a := by
        unfold writeCore historyOf
        simp only
        split
        · rfl
        · simp only [FMap.get_insert_ne _ _ hb]
      rw [this]; exact hn
  | init c b d hd =>
    unfold initHistory historyOf
    simp only [FMap.get_insert]
    split
    · simp
    · exact hn
  | modify c c' b e hm =>
    unfold forceModifyHistory at hm
    split at hm
    · cases hm
    · split at hm
      · cases hm
      · split at hm
        · cases hm
        · cases hm
          unfold historyOf
          simp only [FMap.get_insert]
          split
          · simp
          · exact hn
  | trans h1 h2 ih1 ih2 => exact ih2 (ih1 hn)

/-- Result of one operation on the credit maps. -/
def Change (era : Nat) (c c' : Core) : Prop :=
  Soft era c c' ∨ ∃ c1 a, Soft era c c1 ∧ c' = eraseCore c1 a

theorem Change.same {era : Nat} (c : Core) : Change era c c := Or.inl (.refl c)

theorem slashCredit_change {cfg : Cfg} {era : Nat} {c c' : Core} {a : AccId} {score : Option Nat}
    (hr : slashCredit cfg era c a score = .ok c') :
    Soft era c c' ∨ c' = eraseCore c a := by
  cases hg : c.userCredit.get a with
  | some d =>
    rw [slashCredit_some hg] at hr
    cases hr
    split
    · exact Or.inr rfl
    · exact Or.inl (.write _ _ _)
  | none =>
    rw [slashCredit_none hg] at hr
    split at hr
    · cases hr; exact Or.inr rfl
    · cases hr

theorem getReward_change {cfg : Cfg} {s : State} {a : AccId} {x y : Nat} {c' : Core}
    {r : Option Balance} (hr : getReward cfg s a x y = .ok (c', r)) :
    Change (currentEra cfg s) s.core c' := by
  unfold getReward at hr
  simp only at hr
  split at hr
  · cases hr; exact Change.same _
  cases hg : s.core.userCredit.get a with
  | none => rw [hg] at hr; cases hr; exact Change.same _
  | some d =>
    rw [hg] at hr
    simp only at hr
    split at hr
    · cases hr; exact Change.same _
    have h1 : Soft (currentEra cfg s) s.core (if (historyOf s.core a).isEmpty = true then
        initHistory s.core a d (currentEra cfg s) else s.core) := by
      split
      · exact .init _ _ _ hg
      · exact .refl _
    generalize (if (historyOf s.core a).isEmpty = true then
        initHistory s.core a d (currentEra cfg s) else s.core) = c1 at h1 hr
    split at hr
    · cases hr
    · rename_i c2 hso
      have h2 : Soft (currentEra cfg s) c1 c2 ∨ c2 = eraseCore c1 a := by
        unfold slashOffline at hso
        split at hso
        · split at hso
          · cases hso; exact Or.inl (.refl _)
          · exact slashCredit_change hso
        · cases hso; exact Or.inl (.refl _)
      split at hr
      · cases hr
        rcases h2 with h2 | h2
        · exact Or.inl (h1.trans h2)
        · exact Or.inr ⟨c1, a, h1, h2⟩
      · rename_i first rest hh
        have h2 : Soft (currentEra cfg s) c1 c2 := by
          rcases h2 with h2 | h2
          · exact h2
          · rw [h2] at hh
            simp [eraseCore, historyOf] at hh
        split at hr
        · split at hr
          · cases hr
          · rename_i c3 hsw
            obtain ⟨v, hv1, hv2⟩ := map_ok hr
            cases hv2
            unfold switchCampaign at hsw
            split at hsw
            · cases hsw; exact Or.inl (h1.trans h2)
            · rw [updateHistory_insert] at hsw
              cases hsw
              exact Or.inl ((h1.trans h2).trans (.write _ _ _))
        · split at hr
          · cases hr; exact Or.inl (h1.trans h2)
          · obtain ⟨v, hv1, hv2⟩ := map_ok hr
            cases hv2
            exact Or.inl (h1.trans h2)

theorem body_change {cfg : Cfg} {s s' : State} {op : Op} {o : Out}
    (h : body cfg s op = .ok (s', o)) (hi : CoreInv lv (currentEra cfg s) s.core) :
    Change (currentEra cfg s) s.core s'.core := by
  have same : ∀ c, Change (currentEra cfg s) c c := Change.same
  have write : ∀ c a d, Change (currentEra cfg s) c (writeCore c a d (currentEra cfg s)) :=
    fun c a d => Or.inl (.write c a d)
  cases op <;> simp only [body] at h
  case external => cases h; exact same _
  case «initialize» => cases h; rw [(onInitialize_core cfg s).1]; exact same _
  case finalize => cases h; rw [(setPrice_core s).1]; exact same _
  case runtimeUpgrade => cases h; rw [(onRuntimeUpgrade_core cfg s).1]; exact same _
  case updateCreditSetting => cases h; exact same _
  case setBurnPrice => cases h; exact same _
  case setStakingBalance => cases h; exact same _
  case burnRecord => cases h; exact same _
  case initDelegatorHistory a =>
    cases h
    show Change _ _ (initDelegatorHistory _ _ a)
    unfold initDelegatorHistory
    split
    · exact same _
    · rename_i d hd; exact Or.inl (.init _ _ _ hd)
  case forceModifyHistory =>
    obtain ⟨c, h1, h2⟩ := map_ok h
    cases h2
    exact Or.inl (.modify _ _ _ _ h1)
  case slashCredit =>
    obtain ⟨_, h1, h2⟩ := map_ok h
    cases h2
    rcases slashCredit_change h1 with h3 | h3
    · exact Or.inl h3
    · exact Or.inr ⟨_, _, .refl _, h3⟩
  case getReward =>
    obtain ⟨⟨x, y⟩, h1, h2⟩ := map_ok h
    cases h2
    exact getReward_change h1
  case tip =>
    obtain ⟨c, h1, h2⟩ := map_ok h
    cases h2
    rcases tipCredit_ok h1 with rfl | ⟨d, _, rfl⟩
    · exact same _
    · exact write _ _ _
  case evmUpdateCredit =>
    obtain ⟨⟨x, y⟩, h1, h2⟩ := map_ok h
    cases h2
    rcases evmUpdateCredit_ok h1 with h3 | ⟨a, d, _, _, _, ⟨_, _, h3⟩ | ⟨_, h3⟩⟩
    · simp only [h3]; exact same _
    · rw [doAddCredit_ok hi] at h3
      cases h3
      exact write _ _ _
    · rcases slashCredit_change h3 with h3 | h3
      · exact Or.inl h3
      · exact Or.inr ⟨_, _, .refl _, h3⟩
  case traffic =>
    obtain ⟨⟨x, y⟩, h1, h2⟩ := map_ok h
    cases h2
    obtain ⟨_, _, h3, h4⟩ := trafficCredit_ok h1
    cases y with
    | false => simp only [(h3 rfl).1]; exact same _
    | true =>
      obtain ⟨d, ob, _, _, _, h5, _⟩ := h4 rfl
      simp only [h5]
      exact write _ _ _
  case addOrUpdateCreditData =>
    split at h
    · rw [doAddCredit_ok hi] at h
      cases h
      exact write _ _ _
    · cases h
  case burnForCredit =>
    obtain ⟨_, h1, h2⟩ := map_ok h
    cases h2
    obtain ⟨_, _, _, _, _, rfl⟩ := burnForCredit_ok h1
    exact write _ _ _
  case burnNft =>
    obtain ⟨_, h1, h2⟩ := map_ok h
    cases h2
    obtain ⟨_, _, _, _, _, _, rfl⟩ := burnNft_ok h1
    exact write _ _ _
  case unstakingSlash =>
    obtain ⟨_, h1, h2⟩ := map_ok h
    cases h2
    obtain ⟨_, _, _, _, rfl⟩ := unstakingSlash_ok h1
    exact write _ _ _
  case addOrUpdateCredit a gap camp =>
    obtain ⟨_, h1, h2⟩ := map_ok h
    cases h2
    unfold addOrUpdateCredit at h1
    obtain ⟨_, h3, h2⟩ := map_ok h1
    cases h2
    rw [doAddCredit_ok hi] at h3
    cases h3
    exact write _ _ _
  case setDprPrice =>
    obtain ⟨_, h1, h2⟩ := map_ok h
    cases h2
    obtain ⟨_, _, _, rfl⟩ := setDprPrice_ok h1
    exact same _
  case setMaintain =>
    obtain ⟨_, h1, h2⟩ := map_ok h
    cases h2
    have h3 := (deviceAdmin_ok h1).2
    cases h3
    split <;> exact same _
  case unsetMaintain =>
    obtain ⟨_, h1, h2⟩ := map_ok h
    cases h2
    have h3 := (deviceAdmin_ok h1).2
    cases h3
    exact same _
  all_goals
    obtain ⟨_, h1, h2⟩ := map_ok h
    cases h2
    have h3 := (admin_ok h1).2
  case setSwitchCampaign =>
    split at h3
    · cases h3; exact same _
    · cases h3
  case unstakingSlashCredit =>
    obtain ⟨_, _, _, _, rfl⟩ := unstakingSlash_ok h3
    exact write _ _ _
  case externalSetCreditData =>
    split at h3
    · rw [doAddCredit_ok hi] at h3
      cases h3
      exact write _ _ _
    · cases h3
  all_goals cases h3; exact same _

theorem step_kept {cfg : Cfg} {s : State} {op : Op} (hi : CoreInv lv (currentEra cfg s) s.core)
    (a : AccId) (hn : historyOf s.core a ≠ []) :
    historyOf (step cfg s op).1.core a ≠ [] ∨ (step cfg s op).1.core.userCredit.get a = none := by
  rcases step_cases (cfg := cfg) s op with ⟨s', o, h1, h2⟩ | h
  · rw [h2]
    rcases body_change h1 hi with h3 | ⟨c1, b, h3, h4⟩
    · exact Or.inl (h3.kept a hn)
    · simp only [h4, eraseCore]
      by_cases hb : a = b
      · subst hb; exact Or.inr (by simp)
      · have := h3.kept a hn
        left
        unfold historyOf at this ⊢
        simp only [FMap.get_erase, hb, if_false]
        exact this
  · rw [h]; exact Or.inl hn

end Verif.Credit
