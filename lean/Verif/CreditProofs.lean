import Verif.CreditSpec

/-
Helper lemmas about the credit model.  The properties are in `CreditProperties.lean`.
-/

namespace Verif.Credit

variable {lv : Prop}

/-! ### Writing one account's credit -/

/-- Credit data of `a` set to `d` with the history brought up to date. -/
def writeCore (c : Core) (a : AccId) (d : Data) (era : Nat) : Core :=
  { userCredit := c.userCredit.insert a d
    history := if (historyOf c a).isEmpty then c.history
      else c.history.insert a (pushHistory (historyOf c a) era d) }

theorem updateHistory_insert (c : Core) (a : AccId) (d : Data) (era : Nat) :
    updateHistory { c with userCredit := c.userCredit.insert a d } a era
      = .ok (writeCore c a d era) := by
  unfold updateHistory
  have hh : historyOf { c with userCredit := c.userCredit.insert a d } a = historyOf c a := rfl
  rw [hh]
  simp only [FMap.get_insert_self, writeCore]
  cases (historyOf c a).isEmpty <;> rfl

theorem updateHistory_none {c : Core} {a : AccId} {era : Nat} (h : c.userCredit.get a = none) :
    updateHistory c a era = .error .panic := by
  unfold updateHistory; rw [h]

theorem updateCredit_some {c : Core} {a : AccId} {d : Data} (h : c.userCredit.get a = some d)
    (score : Nat) :
    updateCredit c a score
      = ({ c with userCredit := c.userCredit.insert a (d.update score) }, true) := by
  unfold updateCredit; rw [h]

theorem updateCredit_none {c : Core} {a : AccId} (h : c.userCredit.get a = none) (score : Nat) :
    updateCredit c a score = (c, false) := by
  unfold updateCredit; rw [h]

/-- The history of one account is in order and ends with the current credit data. -/
def Chron (era : Nat) (cur : Option Data) (h : List (Nat × Data)) : Prop :=
  h.Pairwise (fun x y => x.1 < y.1) ∧ ∃ e, h.getLast? = some e ∧ e.1 ≤ era ∧ cur = some e.2

/-- Invariant of the two credit maps; the part about the level only under the hypothesis `lv`. -/
structure CoreInv (lv : Prop) (era : Nat) (c : Core) : Prop where
  chron : ∀ a h, c.history.get a = some h → Chron era (c.userCredit.get a) h
  level : lv → ∀ a d, c.userCredit.get a = some d → d.level = .ofScore d.credit
  hlevel : lv → ∀ a h, c.history.get a = some h → ∀ e ∈ h, e.2.level = .ofScore e.2.credit

theorem CoreInv.mono {era era' : Nat} {c : Core} (h : CoreInv lv era c) (he : era ≤ era') :
    CoreInv lv era' c := by
  refine ⟨?_, h.level, h.hlevel⟩
  intro a l hl
  obtain ⟨h1, e, h2, h3, h4⟩ := h.chron a l hl
  exact ⟨h1, e, h2, by omega, h4⟩

theorem coreInv_empty (era : Nat) : CoreInv lv era {} := by
  exact ⟨fun a h hh => (nomatch hh), fun _ a h hh => (nomatch hh), fun _ a h hh => (nomatch hh)⟩

theorem pushHistory_chron {era : Nat} {cur : Option Data} {h : List (Nat × Data)}
    (hc : Chron era cur h) (d : Data) : Chron era (some d) (pushHistory h era d) := by
  obtain ⟨h1, e, h2, h3, -⟩ := hc
  unfold pushHistory
  rw [h2]
  simp only
  have hne : h ≠ [] := by rintro rfl; cases h2
  have hsplit : h = h.dropLast ++ [e] := by
    rw [List.getLast?_eq_some_getLast hne] at h2
    cases h2
    exact (List.dropLast_concat_getLast hne).symm
  have hp : h.dropLast.Pairwise (fun x y => x.1 < y.1) ∧ ∀ x ∈ h.dropLast, x.1 < e.1 := by
    rw [hsplit, List.pairwise_append] at h1
    exact ⟨h1.1, fun x hx => h1.2.2 x hx e (by simp)⟩
  split
  · rename_i heq
    refine ⟨?_, (era, d), by simp, Nat.le_refl _, rfl⟩
    rw [List.pairwise_append]
    refine ⟨hp.1, by simp, ?_⟩
    intro x hx y hy
    simp only [List.mem_singleton] at hy
    subst hy
    have := hp.2 x hx
    simp only; omega
  · rename_i hneq
    refine ⟨?_, (era, d), by simp, Nat.le_refl _, rfl⟩
    rw [List.pairwise_append]
    refine ⟨h1, by simp, ?_⟩
    intro x hx y hy
    simp only [List.mem_singleton] at hy
    subst hy
    simp only
    rw [hsplit] at hx
    simp only [List.mem_append, List.mem_singleton] at hx
    rcases hx with hx | rfl
    · have := hp.2 x hx; omega
    · omega

theorem mem_pushHistory {h : List (Nat × Data)} {era : Nat} {d : Data} {e : Nat × Data}
    (he : e ∈ pushHistory h era d) : e ∈ h ∨ e = (era, d) := by
  unfold pushHistory at he
  split at he
  · exact Or.inl he
  · split at he
    · simp only [List.mem_append, List.mem_singleton] at he
      rcases he with he | he
      · exact Or.inl (List.dropLast_subset _ he)
      · exact Or.inr he
    · simp only [List.mem_append, List.mem_singleton] at he
      exact he

theorem historyOf_nonempty {c : Core} {a : AccId} (h : (historyOf c a).isEmpty = false) :
    c.history.get a = some (historyOf c a) := by
  unfold historyOf at *
  cases hg : c.history.get a with
  | none => rw [hg] at h; simp at h
  | some l => rfl

theorem CoreInv.stored_nonempty {era : Nat} {c : Core} (h : CoreInv lv era c) {a : AccId}
    {l : List (Nat × Data)} (hl : c.history.get a = some l) : l ≠ [] := by
  obtain ⟨-, e, h2, -⟩ := h.chron a l hl
  rintro rfl; cases h2

theorem CoreInv.historyOf_empty {era : Nat} {c : Core} (h : CoreInv lv era c) {a : AccId}
    (he : (historyOf c a).isEmpty = true) : c.history.get a = none := by
  unfold historyOf at he
  cases hg : c.history.get a with
  | none => rfl
  | some l =>
    rw [hg] at he
    have := h.stored_nonempty hg
    cases l <;> simp_all

theorem writeCore_inv {era : Nat} {c : Core} (h : CoreInv lv era c) (a : AccId) {d : Data}
    (hd : lv → d.level = .ofScore d.credit) : CoreInv lv era (writeCore c a d era) := by
  unfold writeCore
  cases he : (historyOf c a).isEmpty with
  | true =>
    have hn := h.historyOf_empty he
    simp only [if_true]
    refine ⟨?_, ?_, h.hlevel⟩
    · intro x l hl
      simp only at hl ⊢
      have hx : x ≠ a := by rintro rfl; rw [hn] at hl; cases hl
      rw [FMap.get_insert_ne _ _ hx]
      exact h.chron x l hl
    · intro hlv x y hy
      simp only [FMap.get_insert] at hy
      split at hy
      · cases hy; exact hd hlv
      · exact h.level hlv x y hy
  | false =>
    have hs := historyOf_nonempty he
    simp only [Bool.false_eq_true, if_false]
    refine ⟨?_, ?_, ?_⟩
    · intro x l hl
      simp only [FMap.get_insert] at hl ⊢
      split at hl
      · rename_i hx
        cases hl
        simp only [hx, if_true]
        exact pushHistory_chron (h.chron a _ hs) d
      · rename_i hx
        simp only [hx, if_false]
        exact h.chron x l hl
    · intro hlv x y hy
      simp only [FMap.get_insert] at hy
      split at hy
      · cases hy; exact hd hlv
      · exact h.level hlv x y hy
    · intro hlv x l hl e hm
      simp only [FMap.get_insert] at hl
      split at hl
      · cases hl
        rcases mem_pushHistory hm with hm | rfl
        · exact h.hlevel hlv a _ hs e hm
        · exact hd hlv
      · exact h.hlevel hlv x l hl e hm

theorem update_level (d : Data) (n : Nat) : (d.update n).level = .ofScore (d.update n).credit := rfl

theorem new_level (c n : Nat) : (Data.new c n).level = .ofScore (Data.new c n).credit := rfl

theorem doAddCredit_inv {era : Nat} {c c' : Core} (h : CoreInv lv era c) {a : AccId} {d : Data}
    (hd : lv → d.level = .ofScore d.credit) (hr : doAddCredit era c a d = .ok c') :
    c' = writeCore c a d era ∧ CoreInv lv era c' := by
  have key : doAddCredit era c a d = .ok (writeCore c a d era) := by
    unfold doAddCredit
    have hh : historyOf { c with userCredit := c.userCredit.insert a d } a = historyOf c a := rfl
    simp only [hh, updateHistory_insert]
    cases hg : c.userCredit.get a with
    | some x =>
      simp only
      cases he : (historyOf c a).isEmpty <;> simp [writeCore, he]
    | none =>
      simp only
      have hn : c.history.get a = none := by
        cases hg2 : c.history.get a with
        | none => rfl
        | some l =>
          obtain ⟨-, e, -, -, h4⟩ := h.chron a l hg2
          rw [hg] at h4; cases h4
      simp [writeCore, historyOf, hn]
  rw [key] at hr
  cases hr
  exact ⟨rfl, writeCore_inv h a hd⟩

theorem doAddCredit_ok {era : Nat} {c : Core} (h : CoreInv lv era c) (a : AccId) (d : Data) :
    doAddCredit era c a d = .ok (writeCore c a d era) := by
  unfold doAddCredit
  have hh : historyOf { c with userCredit := c.userCredit.insert a d } a = historyOf c a := rfl
  simp only [hh, updateHistory_insert]
  cases hg : c.userCredit.get a with
  | some x =>
    simp only
    cases he : (historyOf c a).isEmpty <;> simp [writeCore, he]
  | none =>
    simp only
    have hn : c.history.get a = none := by
      cases hg2 : c.history.get a with
      | none => rfl
      | some l =>
        obtain ⟨-, e, -, -, h4⟩ := h.chron a l hg2
        rw [hg] at h4; cases h4
    simp [writeCore, historyOf, hn]

theorem slashCredit_some {cfg : Cfg} {era : Nat} {c : Core} {a : AccId} {d : Data}
    (hg : c.userCredit.get a = some d) (score : Option Nat) :
    slashCredit cfg era c a score = .ok
      (if score.getD cfg.attenuationStep = u64Max then
        { c with userCredit := c.userCredit.erase a, history := c.history.erase a }
       else writeCore c a (d.update (d.credit - score.getD cfg.attenuationStep)) era) := by
  unfold slashCredit
  simp only [hg, updateHistory_insert]
  split <;> rfl

theorem slashCredit_none {cfg : Cfg} {era : Nat} {c : Core} {a : AccId}
    (hg : c.userCredit.get a = none) (score : Option Nat) :
    slashCredit cfg era c a score =
      if score.getD cfg.attenuationStep = u64Max then
        .ok { c with userCredit := c.userCredit.erase a, history := c.history.erase a }
      else .error .panic := by
  unfold slashCredit
  simp only [hg, updateHistory_none hg]

theorem eraseCore_inv {era : Nat} {c : Core} (h : CoreInv lv era c) (a : AccId) :
    CoreInv lv era { c with userCredit := c.userCredit.erase a, history := c.history.erase a } := by
  refine ⟨?_, ?_, ?_⟩
  · intro x l hl
    simp only [FMap.get_erase] at hl ⊢
    split at hl
    · cases hl
    · rename_i hx; simp only [hx, if_false]; exact h.chron x l hl
  · intro hlv x d hd
    simp only [FMap.get_erase] at hd
    split at hd
    · cases hd
    · exact h.level hlv x d hd
  · intro hlv x l hl
    simp only [FMap.get_erase] at hl
    split at hl
    · cases hl
    · exact h.hlevel hlv x l hl

theorem slashCredit_inv {cfg : Cfg} {era : Nat} {c c' : Core} (h : CoreInv lv era c) {a : AccId}
    {score : Option Nat} (hr : slashCredit cfg era c a score = .ok c') : CoreInv lv era c' := by
  cases hg : c.userCredit.get a with
  | some d =>
    rw [slashCredit_some hg] at hr
    cases hr
    split
    · exact eraseCore_inv h a
    · exact writeCore_inv h a (fun _ => update_level _ _)
  | none =>
    rw [slashCredit_none hg] at hr
    split at hr
    · cases hr; exact eraseCore_inv h a
    · cases hr

theorem slashOffline_inv {cfg : Cfg} {era : Nat} {c c' : Core} (h : CoreInv lv era c) {a : AccId}
    {n : Nat} {m : Bool} (hr : slashOffline cfg era c a n m = .ok c') : CoreInv lv era c' := by
  unfold slashOffline at hr
  split at hr
  · split at hr
    · cases hr; exact h
    · exact slashCredit_inv h hr
  · cases hr; exact h

theorem initHistory_inv {era : Nat} {c : Core} (h : CoreInv lv era c) {a : AccId} {d : Data}
    (hd : c.userCredit.get a = some d) : CoreInv lv era (initHistory c a d era) := by
  unfold initHistory
  refine ⟨?_, h.level, ?_⟩
  · intro x l hl
    simp only [FMap.get_insert] at hl ⊢
    split at hl
    · rename_i hx; cases hl; subst hx
      exact ⟨by simp, (era, d), rfl, Nat.le_refl _, hd⟩
    · exact h.chron x l hl
  · intro hlv x l hl e he
    simp only [FMap.get_insert] at hl
    split at hl
    · cases hl
      simp only [List.mem_singleton] at he
      subst he
      exact h.level hlv a d hd
    · exact h.hlevel hlv x l hl e he

theorem switchData_credit (old : Data) (new : Nat) :
    (switchData old new).credit = old.credit ∧ (switchData old new).level = old.level := by
  unfold switchData; split <;> exact ⟨rfl, rfl⟩

theorem switchCampaign_inv {era : Nat} {c c' : Core} (h : CoreInv lv era c) {a : AccId} {old : Data}
    {t : Option Nat} (hd : lv → old.level = .ofScore old.credit)
    (hr : switchCampaign c a old t era = .ok c') : CoreInv lv era c' := by
  unfold switchCampaign at hr
  cases t with
  | none => cases hr; exact h
  | some new =>
    simp only [updateHistory_insert] at hr
    cases hr
    apply writeCore_inv h
    intro hlv
    rw [(switchData_credit old new).1, (switchData_credit old new).2]; exact hd hlv

theorem getReward_inv {cfg : Cfg} {s : State} {a : AccId} {x y : Nat} {c' : Core}
    {r : Option Balance} (h : CoreInv lv (currentEra cfg s) s.core)
    (hr : getReward cfg s a x y = .ok (c', r)) : CoreInv lv (currentEra cfg s) c' := by
  unfold getReward at hr
  simp only at hr
  split at hr
  · cases hr; exact h
  cases hg : s.core.userCredit.get a with
  | none => rw [hg] at hr; cases hr; exact h
  | some d =>
    rw [hg] at hr
    simp only at hr
    split at hr
    · cases hr; exact h
    have h1 : CoreInv lv (currentEra cfg s) (if (historyOf s.core a).isEmpty = true then
        initHistory s.core a d (currentEra cfg s) else s.core) := by
      split
      · exact initHistory_inv h hg
      · exact h
    generalize (if (historyOf s.core a).isEmpty = true then
        initHistory s.core a d (currentEra cfg s) else s.core) = c1 at h1 hr
    split at hr
    · cases hr
    · rename_i c2 hso
      have h2 := slashOffline_inv h1 hso
      split at hr
      · cases hr; exact h2
      · rename_i first rest hh
        split at hr
        · split at hr
          · cases hr
          · rename_i c3 hsw
            have h3 := switchCampaign_inv h2 (fun hlv => h.level hlv a d hg) hsw
            cases hro : rewardOf cfg s a (first :: rest) x (min y (first.1 + d.rewardEras - 1)) with
            | error e => rw [hro] at hr; cases hr
            | ok v => rw [hro] at hr; cases hr; exact h3
        · split at hr
          · cases hr; exact h2
          · cases hro : rewardOf cfg s a (first :: rest) x (min y (first.1 + d.rewardEras - 1)) with
            | error e => rw [hro] at hr; cases hr
            | ok v => rw [hro] at hr; cases hr; exact h2

theorem modifyPos_spec {h : List (Nat × Data)} {era i : Nat} (hp : modifyPos h era = some i) :
    ∃ x, h[i]? = some x ∧ x.1 ≤ era ∧ ∀ y, h[i + 1]? = some y → era < y.1 := by
  unfold modifyPos at hp
  have := List.find?_some hp
  split at this
  · rename_i x y h1 h2
    simp only [decide_eq_true_eq] at this
    exact ⟨x, h1, this.1, fun z hz => by rw [h2] at hz; cases hz; exact this.2⟩
  · rename_i x h1 h2
    simp only [decide_eq_true_eq] at this
    exact ⟨x, h1, this, fun z hz => by rw [h2] at hz; cases hz⟩
  · cases this

theorem forceModify_inv {era : Nat} {c c' : Core} (h : CoreInv lv era c) {a : AccId} {e : Nat}
    (he : e ≤ era) (hr : forceModifyHistory c a e = .ok c') : CoreInv lv era c' := by
  unfold forceModifyHistory at hr
  cases hg : c.history.get a with
  | none => rw [hg] at hr; cases hr
  | some l =>
    rw [hg] at hr
    simp only at hr
    cases hp : modifyPos l e with
    | none => rw [hp] at hr; cases hr
    | some i =>
      rw [hp] at hr
      simp only at hr
      obtain ⟨x, hx1, hx2, hx3⟩ := modifyPos_spec hp
      have hi : i < l.length := by
        have := List.getElem?_eq_some_iff.1 hx1
        exact this.1
      have hxe : l[i] = x := (List.getElem?_eq_some_iff.1 hx1).2
      have hdrop : l.drop i = x :: l.drop (i + 1) := by
        rw [List.drop_eq_getElem_cons hi, hxe]
      rw [hdrop] at hr
      simp only at hr
      cases hr
      obtain ⟨q1, z, q2, q3, q4⟩ := h.chron a l hg
      have hpd : (x :: l.drop (i + 1)).Pairwise (fun x y => x.1 < y.1) := by
        rw [← hdrop]; exact List.Pairwise.sublist (List.drop_sublist _ _) q1
      refine ⟨?_, h.level, ?_⟩
      · intro b m hm
        simp only [FMap.get_insert] at hm ⊢
        split at hm
        · rename_i hb
          cases hm
          subst hb
          have hnext : ∀ y ∈ l.drop (i + 1), e < y.1 := by
            cases hd2 : l.drop (i + 1) with
            | nil => simp
            | cons w ws =>
              have hw : l[i + 1]? = some w := by
                have := congrArg List.head? hd2
                simpa using this
              have hw2 := hx3 w hw
              rw [hd2] at hpd
              simp only [List.pairwise_cons] at hpd
              intro y hy
              simp only [List.mem_cons] at hy
              rcases hy with rfl | hy
              · exact hw2
              · have := hpd.2.1 y hy; omega
          refine ⟨?_, ?_⟩
          · simp only [List.pairwise_cons] at hpd ⊢
            exact ⟨hnext, hpd.2⟩
          · have hlast : (l.drop i).getLast? = l.getLast? := by
              rw [List.getLast?_drop, if_neg (by omega)]
            rw [hdrop, q2] at hlast
            cases hd2 : l.drop (i + 1) with
            | nil =>
              rw [hd2] at hlast
              simp at hlast
              subst hlast
              exact ⟨(e, x.2), rfl, he, q4⟩
            | cons w ws =>
              rw [hd2] at hlast
              rw [List.getLast?_cons_cons] at hlast ⊢
              exact ⟨z, hlast, q3, q4⟩
        · exact h.chron b m hm
      · intro hlv b m hm y hy
        simp only [FMap.get_insert] at hm
        split at hm
        · cases hm
          simp only [List.mem_cons] at hy
          have hxm : x ∈ l := by rw [← hxe]; exact List.getElem_mem _
          rcases hy with rfl | hy
          · exact h.hlevel hlv a l hg x hxm
          · exact h.hlevel hlv a l hg y (List.mem_of_mem_drop hy)
        · exact h.hlevel hlv b m hm y hy

/-! ### Settings -/

theorem updateSetting_core (s : State) (c : Setting) :
    (updateSetting s c).core = s.core ∧ (updateSetting s c).block = s.block := ⟨rfl, rfl⟩

theorem foldl_updateSetting_core (l : List Setting) (s : State) :
    (l.foldl updateSetting s).core = s.core ∧ (l.foldl updateSetting s).block = s.block := by
  induction l generalizing s with
  | nil => exact ⟨rfl, rfl⟩
  | cons c l ih => simp only [List.foldl_cons]; exact ih _

theorem onInitialize_core (cfg : Cfg) (s : State) :
    (onInitialize cfg s).core = s.core ∧ (onInitialize cfg s).block = s.block := by
  unfold onInitialize
  split
  · split
    · exact ⟨rfl, rfl⟩
    · simp only
      split
      · split
        · exact foldl_updateSetting_core _ _
        · exact ⟨rfl, rfl⟩
      · exact ⟨rfl, rfl⟩
  · exact ⟨rfl, rfl⟩

theorem onRuntimeUpgrade_core (cfg : Cfg) (s : State) :
    (onRuntimeUpgrade cfg s).core = s.core ∧ (onRuntimeUpgrade cfg s).block = s.block := by
  unfold onRuntimeUpgrade
  split
  · simp only
    rw [(foldl_updateSetting_core _ _).1, (foldl_updateSetting_core _ _).2]
    exact foldl_updateSetting_core _ _
  · exact ⟨rfl, rfl⟩

theorem setPrice_core (s : State) :
    (setPrice s).core = s.core ∧ (setPrice s).block = s.block := by
  unfold setPrice; split <;> exact ⟨rfl, rfl⟩

theorem admin_ok {s s' : State} {who : AccId} {k : Except Fail State}
    (h : admin s who k = .ok s') : s.isAdmin who = true ∧ k = .ok s' := by
  unfold admin at h
  split at h
  · rename_i hw; exact ⟨hw, h⟩
  · cases h

theorem deviceAdmin_ok {s s' : State} {who : AccId} {k : Except Fail State}
    (h : deviceAdmin s who k = .ok s') : s.isDeviceAdmin who = true ∧ k = .ok s' := by
  unfold deviceAdmin at h
  split at h
  · rename_i hw; exact ⟨hw, h⟩
  · cases h

theorem map_ok {α β : Type} {x : Except Fail α} {f : α → β} {y : β}
    (h : x.map f = .ok y) : ∃ a, x = .ok a ∧ f a = y := by
  cases x with
  | error e => cases h
  | ok a => exact ⟨a, rfl, by cases h; rfl⟩

/-! ### Writing functions -/

theorem trafficCredit_ok {cfg : Cfg} {s s' : State} {a : AccId} {b : Bool}
    (h : trafficCredit cfg s a = .ok (s', b)) :
    s'.block = s.block ∧ s'.now = s.now ∧
    (b = false → s'.core = s.core ∧ s'.lastUpdateTs = s.lastUpdateTs) ∧
    (b = true → ∃ d ob, s.core.userCredit.get a = some d ∧ s.onboard a = some ob ∧
      1 ≤ (updateInterval cfg s a (blockToEra cfg ob)).1 ∧
      s'.core = writeCore s.core a (d.update (satAdd64 d.credit 1)) (currentEra cfg s) ∧
      s'.lastUpdateTs = s.lastUpdateTs.insert a s.now) := by
  unfold trafficCredit at h
  cases hob : s.onboard a with
  | none => rw [hob] at h; cases h; simp
  | some ob =>
    rw [hob] at h
    simp only at h
    split at h
    · rename_i hiv
      cases hg : s.core.userCredit.get a with
      | none =>
        rw [updateCredit_none hg] at h
        simp only [Bool.false_eq_true, if_false] at h
        cases h
        simp
      | some d =>
        rw [updateCredit_some hg] at h
        simp only [if_true, updateHistory_insert] at h
        cases h
        refine ⟨rfl, rfl, by simp, fun _ => ⟨d, ob, rfl, rfl, hiv, ?_, rfl⟩⟩
        simp [creditScore, hg]
    · cases h; simp

theorem tipCredit_ok {cfg : Cfg} {s : State} {a : AccId} {n : Nat} {c : Core}
    (h : tipCredit cfg s a n = .ok c) :
    c = s.core ∨ ∃ d, s.core.userCredit.get a = some d ∧
      c = writeCore s.core a (d.update (satAdd64 d.credit n)) (currentEra cfg s) := by
  unfold tipCredit at h
  split at h
  · cases h; exact Or.inl rfl
  · cases hg : s.core.userCredit.get a with
    | none =>
      rw [updateCredit_none hg] at h
      cases h; exact Or.inl rfl
    | some d =>
      rw [updateCredit_some hg] at h
      simp only [if_true, updateHistory_insert] at h
      cases h
      exact Or.inr ⟨d, rfl, by simp [creditScore, hg]⟩

theorem nftCredit_ok {era : Nat} {c c' : Core} {a : AccId} {n : Nat}
    (h : nftCredit era c a n = .ok c') :
    ∃ d, c.userCredit.get a = some d ∧ c' = writeCore c a (d.update (satAdd64 d.credit n)) era := by
  unfold nftCredit at h
  cases hg : c.userCredit.get a with
  | none => rw [updateCredit_none hg] at h; cases h
  | some d =>
    rw [updateCredit_some hg] at h
    simp only [if_true, updateHistory_insert] at h
    cases h
    exact ⟨d, rfl, by simp [creditScore, hg]⟩

theorem unstakingSlash_ok {cfg : Cfg} {s s' : State} {a : AccId}
    (h : unstakingSlash cfg s a = .ok s') :
    ∃ st d, s.stakingCredit.get a = some st ∧ s.core.userCredit.get a = some d ∧
      s' = { s with
        core := writeCore s.core a (Data.new s.defaultCampaign (d.credit - st)) (currentEra cfg s)
        stakingCredit := s.stakingCredit.erase a } := by
  unfold unstakingSlash at h
  cases hst : s.stakingCredit.get a with
  | none => rw [hst] at h; cases h
  | some st =>
    rw [hst] at h
    cases hg : s.core.userCredit.get a with
    | none => simp only [creditScore, hg] at h; cases h
    | some d =>
      simp only [creditScore, hg, Option.map_some, updateHistory_insert] at h
      cases h
      exact ⟨st, d, rfl, rfl, rfl⟩

theorem burnForCredit_ok {cfg : Cfg} {s s' : State} {a : AccId} {score : Nat}
    (h : burnForCredit cfg s a score = .ok s') :
    ∃ d b, s.core.userCredit.get a = some d ∧
      satAdd64 d.credit score ≤ burnCeiling cfg (historyOf s.core a) ∧
      s.bank.withdraw a (s.burnPrice * (score % 2 ^ 32)) true = .ok b ∧
      s' = burnRecord cfg { s with
        bank := b.depositCreating cfg.burnedTo (s.burnPrice * (score % 2 ^ 32))
        core := writeCore s.core a (d.update (satAdd64 d.credit score)) (currentEra cfg s) }
        (s.burnPrice * (score % 2 ^ 32)) := by
  unfold burnForCredit at h
  cases hg : s.core.userCredit.get a with
  | none => rw [hg] at h; cases h
  | some d =>
    rw [hg] at h
    simp only at h
    split at h
    · cases h
    rename_i hle
    cases hw : s.bank.withdraw a (s.burnPrice * (score % 2 ^ 32)) true with
    | error e => rw [hw] at h; cases h
    | ok b =>
      rw [hw, updateCredit_some hg] at h
      simp only [updateHistory_insert] at h
      cases h
      exact ⟨d, b, rfl, by omega, rfl, rfl⟩

theorem burnNft_ok {cfg : Cfg} {s s' : State} {a : AccId} {cls : Nat} {ok : Bool}
    (h : burnNft cfg s a cls ok = .ok s') :
    ∃ credit d, s.nftClassCredit.get cls = some credit ∧ s.core.userCredit.get a = some d ∧
      ((s.creditFromNft.get a).getD 0 + credit) % 2 ^ 64 ≤ cfg.maxBurnCredit ∧ ok = true ∧
      s' = { s with
        core := writeCore s.core a (d.update (satAdd64 d.credit credit)) (currentEra cfg s)
        creditFromNft :=
          s.creditFromNft.insert a (((s.creditFromNft.get a).getD 0 + credit) % 2 ^ 64) } := by
  unfold burnNft at h
  cases hc : s.nftClassCredit.get cls with
  | none => rw [hc] at h; cases h
  | some credit =>
    rw [hc] at h
    simp only at h
    split at h
    · cases h
    rename_i hle
    split at h
    · cases h
    rename_i hok
    obtain ⟨c, hc2, rfl⟩ := map_ok h
    obtain ⟨d, hg, rfl⟩ := nftCredit_ok hc2
    exact ⟨credit, d, rfl, hg, by omega, by simpa using hok, rfl⟩

theorem evmUpdateCredit_ok {cfg : Cfg} {s : State} {caller user score : Nat} {add b : Bool}
    {c : Core} (h : evmUpdateCredit cfg s caller user score add = .ok (c, b)) :
    c = s.core ∨ ∃ a d, s.isEvmOperator caller = true ∧ s.evmToAccount user = some a ∧ b = true ∧
      ((add = true ∧ s.core.userCredit.get a = some d ∧
        doAddCredit (currentEra cfg s) s.core a (d.update (satAdd64 d.credit score)) = .ok c) ∨
       (add = false ∧ slashCredit cfg (currentEra cfg s) s.core a (some score) = .ok c)) := by
  unfold evmUpdateCredit at h
  split at h
  · cases h; exact Or.inl rfl
  · rename_i hop
    cases he : s.evmToAccount user with
    | none => rw [he] at h; cases h; exact Or.inl rfl
    | some a =>
      rw [he] at h
      simp only at h
      split at h
      · rename_i hadd
        cases hg : s.core.userCredit.get a with
        | none => rw [hg] at h; cases h; exact Or.inl rfl
        | some d =>
          rw [hg] at h
          simp only at h
          obtain ⟨c', h1, h2⟩ := map_ok h
          cases h2
          exact Or.inr ⟨a, d, by simpa using hop, rfl, rfl, Or.inl ⟨hadd, hg, h1⟩⟩
      · rename_i hadd
        obtain ⟨c', h1, h2⟩ := map_ok h
        cases h2
        exact Or.inr ⟨a, default, by simpa using hop, rfl, rfl, Or.inr ⟨by simpa using hadd, h1⟩⟩

theorem setDprPrice_ok {s s' : State} {who : AccId} {price : Balance}
    (h : setDprPrice s who price = .ok s') :
    price ≠ 0 ∧ s.isOracle who = true ∧ withinRate s.priceDiffRate s.dprPrice price = true ∧
      s' = { s with currentPrices := s.currentPrices ++ [price] } := by
  unfold setDprPrice at h
  split at h
  · cases h
  split at h
  · cases h
  split at h
  · cases h
    rename_i h1 h2 h3
    exact ⟨h1, by simpa using h2, h3, rfl⟩
  · cases h

theorem checkCreditData_level {s : State} {d : Data} (h : checkCreditData s d = true) :
    d.level = .ofScore d.credit := by
  unfold checkCreditData at h
  simp only [Bool.and_eq_true, decide_eq_true_eq] at h
  exact h.1.symm

theorem body_block {cfg : Cfg} {s s' : State} {op : Op} {o : Out}
    (h : body cfg s op = .ok (s', o)) : s.block ≤ s'.block := by
  cases op <;> simp only [body] at h
  case external => cases h; simp
  case «initialize» => cases h; rw [(onInitialize_core cfg s).2]; exact Nat.le_refl _
  case finalize => cases h; rw [(setPrice_core s).2]; exact Nat.le_refl _
  case runtimeUpgrade => cases h; rw [(onRuntimeUpgrade_core cfg s).2]; exact Nat.le_refl _
  case updateCreditSetting => cases h; exact Nat.le_refl _
  case setBurnPrice => cases h; exact Nat.le_refl _
  case setStakingBalance => cases h; exact Nat.le_refl _
  case burnRecord => cases h; exact Nat.le_refl _
  case initDelegatorHistory => cases h; exact Nat.le_refl _
  case forceModifyHistory => obtain ⟨_, _, h2⟩ := map_ok h; cases h2; exact Nat.le_refl _
  case slashCredit => obtain ⟨_, _, h2⟩ := map_ok h; cases h2; exact Nat.le_refl _
  case getReward => obtain ⟨_, _, h2⟩ := map_ok h; cases h2; exact Nat.le_refl _
  case tip => obtain ⟨_, _, h2⟩ := map_ok h; cases h2; exact Nat.le_refl _
  case evmUpdateCredit => obtain ⟨_, _, h2⟩ := map_ok h; cases h2; exact Nat.le_refl _
  case traffic =>
    obtain ⟨⟨x, y⟩, h1, h2⟩ := map_ok h
    cases h2
    exact Nat.le_of_eq (trafficCredit_ok h1).1.symm
  case addOrUpdateCreditData =>
    split at h
    · obtain ⟨_, _, h2⟩ := map_ok h; cases h2; exact Nat.le_refl _
    · cases h
  case burnForCredit =>
    obtain ⟨_, h1, h2⟩ := map_ok h
    cases h2
    obtain ⟨_, _, _, _, _, rfl⟩ := burnForCredit_ok h1
    exact Nat.le_refl _
  case burnNft =>
    obtain ⟨_, h1, h2⟩ := map_ok h
    cases h2
    obtain ⟨_, _, _, _, _, _, rfl⟩ := burnNft_ok h1
    exact Nat.le_refl _
  case unstakingSlash =>
    obtain ⟨_, h1, h2⟩ := map_ok h
    cases h2
    obtain ⟨_, _, _, _, rfl⟩ := unstakingSlash_ok h1
    exact Nat.le_refl _
  case addOrUpdateCredit =>
    obtain ⟨_, h1, h2⟩ := map_ok h
    cases h2
    unfold addOrUpdateCredit at h1
    obtain ⟨_, _, h2⟩ := map_ok h1
    cases h2
    exact Nat.le_refl _
  case setDprPrice =>
    obtain ⟨_, h1, h2⟩ := map_ok h
    cases h2
    obtain ⟨_, _, _, rfl⟩ := setDprPrice_ok h1
    exact Nat.le_refl _
  case setMaintain =>
    obtain ⟨_, h1, h2⟩ := map_ok h
    cases h2
    have h3 := (deviceAdmin_ok h1).2
    cases h3
    split <;> exact Nat.le_refl _
  case unsetMaintain =>
    obtain ⟨_, h1, h2⟩ := map_ok h
    cases h2
    have h3 := (deviceAdmin_ok h1).2
    cases h3
    exact Nat.le_refl _
  all_goals
    obtain ⟨_, h1, h2⟩ := map_ok h
    cases h2
    have h3 := (admin_ok h1).2
  case setSwitchCampaign =>
    split at h3
    · cases h3; exact Nat.le_refl _
    · cases h3
  case unstakingSlashCredit =>
    obtain ⟨_, _, _, _, rfl⟩ := unstakingSlash_ok h3
    exact Nat.le_refl _
  case externalSetCreditData =>
    split at h3
    · obtain ⟨_, _, h2⟩ := map_ok h3; cases h2; exact Nat.le_refl _
    · cases h3
  all_goals cases h3; exact Nat.le_refl _

theorem body_now {cfg : Cfg} {s s' : State} {op : Op} {o : Out}
    (h : body cfg s op = .ok (s', o)) (hi : CoreInv lv (currentEra cfg s) s.core)
    (ht : timely cfg s op) : CoreInv lv (currentEra cfg s) s'.core := by
  cases op <;> simp only [body] at h
  case external => cases h; exact hi
  case «initialize» => cases h; rw [(onInitialize_core cfg s).1]; exact hi
  case finalize => cases h; rw [(setPrice_core s).1]; exact hi
  case runtimeUpgrade => cases h; rw [(onRuntimeUpgrade_core cfg s).1]; exact hi
  case updateCreditSetting => cases h; exact hi
  case setBurnPrice => cases h; exact hi
  case setStakingBalance => cases h; exact hi
  case burnRecord => cases h; exact hi
  case initDelegatorHistory a =>
    cases h
    show CoreInv lv _ (initDelegatorHistory _ _ a)
    unfold initDelegatorHistory
    split
    · exact hi
    · rename_i d hd; exact initHistory_inv hi hd
  case forceModifyHistory =>
    obtain ⟨c, h1, h2⟩ := map_ok h
    cases h2
    exact forceModify_inv hi ht h1
  case slashCredit => obtain ⟨_, h1, h2⟩ := map_ok h; cases h2; exact slashCredit_inv hi h1
  case getReward =>
    obtain ⟨⟨x, y⟩, h1, h2⟩ := map_ok h
    cases h2
    exact getReward_inv hi h1
  case tip =>
    obtain ⟨c, h1, h2⟩ := map_ok h
    cases h2
    rcases tipCredit_ok h1 with rfl | ⟨d, _, rfl⟩
    · exact hi
    · exact writeCore_inv hi _ fun _ => update_level _ _
  case evmUpdateCredit =>
    obtain ⟨⟨x, y⟩, h1, h2⟩ := map_ok h
    cases h2
    rcases evmUpdateCredit_ok h1 with h3 | ⟨a, d, _, _, _, ⟨_, _, h3⟩ | ⟨_, h3⟩⟩
    · simp only [h3]; exact hi
    · exact (doAddCredit_inv hi (fun _ => update_level _ _) h3).2
    · exact slashCredit_inv hi h3
  case traffic =>
    obtain ⟨⟨x, y⟩, h1, h2⟩ := map_ok h
    cases h2
    obtain ⟨_, _, h3, h4⟩ := trafficCredit_ok h1
    cases y with
    | false => simp only [(h3 rfl).1]; exact hi
    | true =>
      obtain ⟨d, ob, _, _, _, h5, _⟩ := h4 rfl
      simp only [h5]
      exact writeCore_inv hi _ fun _ => update_level _ _
  case addOrUpdateCreditData =>
    split at h
    · rename_i hc
      obtain ⟨_, h1, h2⟩ := map_ok h
      cases h2
      exact (doAddCredit_inv hi (fun _ => checkCreditData_level hc) h1).2
    · cases h
  case burnForCredit =>
    obtain ⟨_, h1, h2⟩ := map_ok h
    cases h2
    obtain ⟨_, _, _, _, _, rfl⟩ := burnForCredit_ok h1
    exact writeCore_inv hi _ fun _ => update_level _ _
  case burnNft =>
    obtain ⟨_, h1, h2⟩ := map_ok h
    cases h2
    obtain ⟨_, _, _, _, _, _, rfl⟩ := burnNft_ok h1
    exact writeCore_inv hi _ fun _ => update_level _ _
  case unstakingSlash =>
    obtain ⟨_, h1, h2⟩ := map_ok h
    cases h2
    obtain ⟨_, _, _, _, rfl⟩ := unstakingSlash_ok h1
    exact writeCore_inv hi _ fun _ => new_level _ _
  case addOrUpdateCredit a gap camp =>
    obtain ⟨_, h1, h2⟩ := map_ok h
    cases h2
    unfold addOrUpdateCredit at h1
    obtain ⟨_, h3, h2⟩ := map_ok h1
    cases h2
    refine (doAddCredit_inv hi (fun _ => ?_) h3).2
    split <;> rfl
  case setDprPrice =>
    obtain ⟨_, h1, h2⟩ := map_ok h
    cases h2
    obtain ⟨_, _, _, rfl⟩ := setDprPrice_ok h1
    exact hi
  case setMaintain =>
    obtain ⟨_, h1, h2⟩ := map_ok h
    cases h2
    have h3 := (deviceAdmin_ok h1).2
    cases h3
    split <;> exact hi
  case unsetMaintain =>
    obtain ⟨_, h1, h2⟩ := map_ok h
    cases h2
    have h3 := (deviceAdmin_ok h1).2
    cases h3
    exact hi
  all_goals
    obtain ⟨_, h1, h2⟩ := map_ok h
    cases h2
    have h3 := (admin_ok h1).2
  case setSwitchCampaign =>
    split at h3
    · cases h3; exact hi
    · cases h3
  case unstakingSlashCredit =>
    obtain ⟨_, _, _, _, rfl⟩ := unstakingSlash_ok h3
    exact writeCore_inv hi _ fun _ => new_level _ _
  case externalSetCreditData =>
    split at h3
    · rename_i hc
      obtain ⟨_, h4, h2⟩ := map_ok h3
      cases h2
      exact (doAddCredit_inv hi (fun _ => checkCreditData_level hc) h4).2
    · cases h3
  all_goals cases h3; exact hi

theorem step_cases {cfg : Cfg} (s : State) (op : Op) :
    (∃ s' o, body cfg s op = .ok (s', o) ∧ step cfg s op = (s', o)) ∨ (step cfg s op).1 = s := by
  unfold step
  cases hb : body cfg s op with
  | ok r => exact Or.inl ⟨r.1, r.2, rfl, rfl⟩
  | error e => cases e <;> exact Or.inr rfl

theorem body_inv {cfg : Cfg} {s s' : State} {op : Op} {o : Out}
    (h : body cfg s op = .ok (s', o)) (hi : CoreInv lv (currentEra cfg s) s.core)
    (ht : timely cfg s op) : CoreInv lv (currentEra cfg s') s'.core :=
  (body_now h hi ht).mono (Nat.div_le_div_right (body_block h))

theorem step_inv {cfg : Cfg} {s : State} {op : Op} (hi : CoreInv lv (currentEra cfg s) s.core)
    (ht : timely cfg s op) :
    CoreInv lv (currentEra cfg (step cfg s op).1) (step cfg s op).1.core := by
  rcases step_cases (cfg := cfg) s op with ⟨s', o, h1, h2⟩ | h
  · rw [h2]; exact body_inv h1 hi ht
  · rw [h]; exact hi

theorem run_inv {cfg : Cfg} {s : State} {ops : List Op} (hi : CoreInv lv (currentEra cfg s) s.core)
    (ht : ∀ e ∈ (run cfg s ops).2, timely cfg e.1 e.2.1) :
    CoreInv lv (currentEra cfg (run cfg s ops).1) (run cfg s ops).1.core ∧
    ∀ e ∈ (run cfg s ops).2, CoreInv lv (currentEra cfg e.1) e.1.core := by
  induction ops generalizing s with
  | nil => exact ⟨hi, by simp [run]⟩
  | cons op ops ih =>
    simp only [run, List.mem_cons, forall_eq_or_imp] at ht ⊢
    have := ih (step_inv hi ht.1) ht.2
    exact ⟨this.1, hi, this.2⟩

theorem genesis_core (bank : Bank) (settings : List Setting) (users : List (AccId × Data)) :
    (genesis bank settings users).core.history = ∅ ∧
    (genesis bank settings users).block = 0 ∧
    ∀ a d, (genesis bank settings users).core.userCredit.get a = some d → (a, d) ∈ users := by
  unfold genesis
  have h0 := foldl_updateSetting_core settings { bank := bank }
  generalize settings.foldl updateSetting { bank := bank } = s0 at h0
  have key : ∀ (us : List (AccId × Data)) (s : State), s.core.history = ∅ → s.block = 0 →
      let r := us.foldl (fun s u =>
        ({ s with core := { s.core with userCredit := s.core.userCredit.insert u.1 u.2 } } : State)) s
      r.core.history = ∅ ∧ r.block = 0 ∧
        ∀ a d, r.core.userCredit.get a = some d → (a, d) ∈ us ∨ s.core.userCredit.get a = some d := by
    intro us
    induction us with
    | nil => intro s h1 h2; exact ⟨h1, h2, fun a d h => Or.inr h⟩
    | cons u us ih =>
      intro s h1 h2
      obtain ⟨i1, i2, i3⟩ := ih { s with core := { s.core with userCredit := s.core.userCredit.insert u.1 u.2 } } h1 h2
      refine ⟨i1, i2, ?_⟩
      intro a d h
      rcases i3 a d h with h3 | h3
      · exact Or.inl (List.mem_cons_of_mem _ h3)
      · simp only [FMap.get_insert] at h3
        split at h3
        · rename_i he
          subst he
          cases h3
          exact Or.inl (by simp)
        · exact Or.inr h3
  have := key users s0 (by rw [h0.1]) h0.2
  refine ⟨this.1, this.2.1, ?_⟩
  intro a d h
  rcases this.2.2 a d h with h3 | h3
  · exact h3
  · rw [h0.1] at h3; cases h3

theorem genesis_inv (cfg : Cfg) (bank : Bank) (settings : List Setting)
    (users : List (AccId × Data)) (hl : lv → ∀ u ∈ users, u.2.level = .ofScore u.2.credit) :
    CoreInv lv (currentEra cfg (genesis bank settings users)) (genesis bank settings users).core := by
  obtain ⟨h1, h2, h3⟩ := genesis_core bank settings users
  refine ⟨?_, ?_, ?_⟩
  · intro a h hh; rw [h1] at hh; cases hh
  · intro hlv a d hd; exact hl hlv _ (h3 a d hd)
  · intro hlv a h hh; rw [h1] at hh; cases hh

end Verif.Credit
