import Verif.CreditParams
import Mathlib.Data.List.Induction

/-
Properties C95, C96: when the calls of the credit pallet succeed; what each operation does to the
recorded history of an account.
-/

namespace Verif.Credit

/-! ### Specification -/

/-- The history with the record `d` noted for era `era`: entries of other eras stay, an account
without history gets none. -/
def noted (h : List (Nat × Data)) (era : Nat) (d : Data) : List (Nat × Data) :=
  if h = [] then [] else h.filter (fun e => e.1 ≠ era) ++ [(era, d)]

/-- Noting what has become of the record; a deleted record has no history. -/
def note (era : Nat) (h : List (Nat × Data)) : Option Data → List (Nat × Data)
  | some d => noted h era d
  | none => []

/-- The history rewritten by root to begin in era `era`, with the record valid then. -/
def rebased (h : List (Nat × Data)) (era : Nat) : List (Nat × Data) :=
  match (h.filter (fun e => e.1 ≤ era)).getLast? with
  | some e => (era, e.2) :: h.filter (fun e => era < e.1)
  | none => h

/-- Does a reward query for eras `x..y` reach the account's record `d`? -/
def reaches (cfg : Cfg) (s : State) (x y : Nat) (d : Data) : Prop :=
  x ≤ y ∧ y < currentEra cfg s ∧ d.rewardEras ≠ 0

/-- Does the query change the record: penalty for being offline, or end of the campaign? -/
def touches (cfg : Cfg) (s : State) (a : AccId) (x : Nat) (d : Data) : Prop :=
  (0 < s.erasOffline a ∧ s.erasOffline a % 3 = 0 ∧ a ∉ s.maintain) ∨
  ((x = periodStart (historyOf s.core a) (currentEra cfg s) + d.rewardEras - 1 ∨ d.campaign ≤ 6) ∧
    successor s a d ≠ none)

/-- The history after a reward query; it is started by the first query. -/
def historyAfterQuery (cfg : Cfg) (s : State) (a : AccId) (x y : Nat) (d : Data)
    (new h : List (Nat × Data)) : Prop :=
  let h1 := if h = [] then [(currentEra cfg s, d)] else h
  (reaches cfg s x y d → touches cfg s a x d →
    new = noted h1 (currentEra cfg s) (queried cfg s a x y d)) ∧
  (reaches cfg s x y d → ¬ touches cfg s a x d → new = h1) ∧
  (¬ reaches cfg s x y d → new = h)

/-- Operations which note the new record of an account in its history. -/
def notes (s : State) : Op → Out → Option AccId
  | .traffic a, .flag true => some a
  | .tip a _, .done => if s.onboard a = none then none else some a
  | .burnForCredit a _, .done => some a
  | .burnNft a _ _, .done => some a
  | .addOrUpdateCredit a _ _, .done => some a
  | .evmUpdateCredit _ user _ _, .flag true => s.evmToAccount user
  | .slashCredit a _, .done => some a
  | .unstakingSlash a, .done => some a
  | .unstakingSlashCredit _ a, .done => some a
  | .addOrUpdateCreditData a _, .done => some a
  | .externalSetCreditData _ a _, .done => some a
  | _, _ => none

/-- `v` can be taken from the account and leave it alive. -/
def spendable (b : Bank) (a : AccId) (v : Balance) : Prop :=
  v = 0 ∨ (v + b.frozen a ≤ b.free a ∧ (b.free a < b.ed ∨ v + b.ed ≤ b.free a))

/-- When an operation succeeds (calls of administrators without further condition: see C82). -/
def accepted (cfg : Cfg) (s : State) : Op → Prop
  | .burnForCredit a n => ∃ d, s.core.userCredit.get a = some d ∧
      (min (d.credit + n) (2 ^ 64 - 1) ≤ cfg.minCredit ∨
        ∃ e ∈ historyOf s.core a, min (d.credit + n) (2 ^ 64 - 1) ≤ e.2.credit) ∧
      spendable s.bank a (s.burnPrice * (n % 2 ^ 32))
  | .burnNft a cls nftOk => s.core.userCredit.get a ≠ none ∧ nftOk = true ∧
      ∃ c, s.nftClassCredit.get cls = some c ∧
        ((s.creditFromNft.get a).getD 0 + c) % 2 ^ 64 ≤ cfg.maxBurnCredit
  | .setDprPrice who p => p ≠ 0 ∧ s.isOracle who = true ∧
      ∀ rate old, s.priceDiffRate = some rate → s.dprPrice = some old →
        max p old - min p old ≤ divNearestDown (old * rate) 100
  | .addOrUpdateCreditData _ d => d.level = .ofScore d.credit ∧
      d.referees ≤ ((s.settings.get (d.campaign, d.initialLevel)).getD default).maxReferees
  | .externalSetCreditData who _ d => s.isAdmin who = true ∧ d.level = .ofScore d.credit ∧
      d.referees ≤ ((s.settings.get (d.campaign, d.initialLevel)).getD default).maxReferees
  | .unstakingSlash a => s.core.userCredit.get a ≠ none ∧ s.stakingCredit.get a ≠ none
  | .unstakingSlashCredit who a =>
      s.isAdmin who = true ∧ s.core.userCredit.get a ≠ none ∧ s.stakingCredit.get a ≠ none
  | .slashCredit a n => s.core.userCredit.get a ≠ none ∨ n.getD cfg.attenuationStep = 2 ^ 64 - 1
  | .forceModifyHistory a era => ∃ e ∈ historyOf s.core a, e.1 ≤ era
  | .setSwitchCampaign who olds news => s.isAdmin who = true ∧ olds.length = news.length
  | .updateNftClass who _ _ | .updateNftSum who _ _ | .setNotSwitch who _ | .setCreditBalances who _
  | .setUsdtCreditBalances who _ | .setDefaultCampaign who _ | .setUserStakingCredit who _
  | .setPriceDiffRate who _ | .unsetStakingBalance who _ => s.isAdmin who = true
  | .setMaintain who _ | .unsetMaintain who _ => s.isDeviceAdmin who = true
  | .evmUpdateCredit caller user n add => ∀ a, s.isEvmOperator caller = true → s.evmToAccount user = some a →
      add = false → s.core.userCredit.get a ≠ none ∨ n = 2 ^ 64 - 1
  | _ => True

/-- The operation was carried out (neither error nor panic). -/
def Out.good : Out → Bool
  | .failed _ | .panicked => false
  | _ => true

/-! ### Histories in order -/

theorem push_noted {era : Nat} {cur : Option Data} {h : List (Nat × Data)} (hc : Chron era cur h) (d : Data) :
    pushHistory h era d = h.filter (fun e => e.1 ≠ era) ++ [(era, d)] := by
  obtain ⟨h1, e, h2, h3, -⟩ := hc
  unfold pushHistory
  rw [h2]
  simp only
  have hne : h ≠ [] := by rintro rfl; cases h2
  have hsplit : h = h.dropLast ++ [e] := by
    rw [List.getLast?_eq_some_getLast hne] at h2
    cases h2
    exact (List.dropLast_concat_getLast hne).symm
  have hp : ∀ x ∈ h.dropLast, x.1 < e.1 := by
    rw [hsplit, List.pairwise_append] at h1
    exact fun x hx => h1.2.2 x hx e (by simp)
  have hf : h.dropLast.filter (fun x => decide (x.1 ≠ era)) = h.dropLast := by
    rw [List.filter_eq_self]
    intro x hx
    have := hp x hx
    simp only [decide_eq_true_eq]; omega
  have hfilter : h.filter (fun x => decide (x.1 ≠ era)) = if e.1 = era then h.dropLast else h := by
    rw [hsplit, List.filter_append, List.dropLast_concat, hf]
    by_cases he : e.1 = era
    · simp [he]
    · simp [he]
  rw [hfilter]
  split <;> rfl

theorem chron_of {era : Nat} {c : Core} (hi : CoreInv False era c) {a : AccId} (hn : historyOf c a ≠ []) :
    Chron era (c.userCredit.get a) (historyOf c a) := by
  apply hi.chron
  exact historyOf_nonempty (by simpa using hn)

theorem write_noted {era : Nat} {c : Core} (hi : CoreInv False era c) (a b : AccId) (d : Data) :
    historyOf (writeCore c a d era) b = if b = a then noted (historyOf c a) era d else historyOf c b := by
  by_cases hb : b = a
  · subst hb
    rw [historyOf_writeCore, if_pos rfl]
    unfold noted
    by_cases hn : historyOf c b = []
    · simp [hn]
    · rw [if_neg (by simpa using hn), if_neg hn, push_noted (chron_of hi hn)]
  · rw [if_neg hb]
    unfold writeCore historyOf
    simp only
    split
    · rfl
    · rw [FMap.get_insert_ne _ _ hb]

theorem no_record {era : Nat} {c : Core} (hi : CoreInv False era c) {a : AccId}
    (h : c.userCredit.get a = none) : historyOf c a = [] := by
  apply Classical.byContradiction
  intro hn
  obtain ⟨-, e, -, -, h4⟩ := chron_of hi hn
  rw [h] at h4; cases h4

/-- What noting operations do: the new core is that of writing the new record, or of deletion. -/
theorem noting {era : Nat} {c c' : Core} (hi : CoreInv False era c) {a : AccId}
    (h : (∃ d, c' = writeCore c a d era) ∨
      c' = { c with userCredit := c.userCredit.erase a, history := c.history.erase a } ∨
      (c' = c ∧ c.userCredit.get a = none)) (b : AccId) :
    historyOf c' b = if b = a then note era (historyOf c a) (c'.userCredit.get a) else historyOf c b := by
  rcases h with ⟨d, rfl⟩ | rfl | ⟨rfl, h⟩
  · rw [write_noted hi]
    simp only [writeCore_uc, FMap.get_insert_self, note]
  · by_cases hb : b = a
    · subst hb; simp [historyOf, note]
    · rw [if_neg hb]
      simp [historyOf, FMap.get_erase_ne _ hb]
  · rw [h, no_record hi h]
    split
    · rename_i hb; subst hb; rw [no_record hi h]; rfl
    · rfl

theorem slash_noting {cfg : Cfg} {era : Nat} {c c' : Core} {a : AccId} {n : Option Nat}
    (h : slashCredit cfg era c a n = .ok c') : (∃ d, c' = writeCore c a d era) ∨
      c' = { c with userCredit := c.userCredit.erase a, history := c.history.erase a } ∨
      (c' = c ∧ c.userCredit.get a = none) := by
  cases hg : c.userCredit.get a with
  | none =>
    rw [slashCredit_none hg] at h
    split at h
    · cases h; exact Or.inr (Or.inl rfl)
    · cases h
  | some d =>
    rw [slashCredit_some hg] at h
    cases h
    split
    · exact Or.inr (Or.inl rfl)
    · exact Or.inl ⟨_, rfl⟩

theorem note_step (cfg : Cfg) (s : State) (hi : CoreInv False (currentEra cfg s) s.core) (op : Op)
    (a : AccId) (hn : notes s op (step cfg s op).2 = some a) (b : AccId) :
    historyOf (step cfg s op).1.core b = if b = a then
      note (currentEra cfg s) (historyOf s.core a) ((step cfg s op).1.core.userCredit.get a)
      else historyOf s.core b := by
  unfold step at hn ⊢
  cases h : body cfg s op with
  | error e => rw [h] at hn; cases e <;> cases op <;> cases hn
  | ok r =>
  obtain ⟨s', o⟩ := r
  rw [h] at hn
  simp only at hn ⊢
  cases op <;> simp only [body] at h
  case traffic x =>
    obtain ⟨⟨s1, fl⟩, h3, h4⟩ := map_ok h
    cases h4
    cases fl with
    | false => cases hn
    | true =>
      cases hn
      obtain ⟨-, -, -, h5⟩ := trafficCredit_ok h3
      obtain ⟨d, ob, -, -, -, h6, -⟩ := h5 rfl
      exact noting hi (Or.inl ⟨_, h6⟩) b
  case tip x n =>
    obtain ⟨c, h3, h4⟩ := map_ok h
    cases h4
    simp only [notes] at hn
    split at hn
    · cases hn
    · rename_i hob
      cases hn
      apply noting hi
      rcases tipCredit_ok h3 with rfl | ⟨d, -, h5⟩
      · cases hg : s.core.userCredit.get a with
        | none => exact Or.inr (Or.inr ⟨rfl, by first | rfl | exact hg⟩)
        | some d =>
          left
          unfold tipCredit at h3
          split at h3
          · rename_i hx; exact absurd hx hob
          · rw [updateCredit_some hg] at h3
            simp only [if_true, updateHistory_insert, Except.ok.injEq] at h3
            exact ⟨_, h3.symm⟩
      · exact Or.inl ⟨_, h5⟩
  case burnForCredit x n =>
    obtain ⟨_, h3, h4⟩ := map_ok h
    cases h4
    cases hn
    obtain ⟨d, bk, -, -, -, rfl⟩ := burnForCredit_ok h3
    exact noting hi (Or.inl ⟨_, rfl⟩) b
  case burnNft x cls k =>
    obtain ⟨_, h3, h4⟩ := map_ok h
    cases h4
    cases hn
    obtain ⟨_, d, -, -, -, -, rfl⟩ := burnNft_ok h3
    exact noting hi (Or.inl ⟨_, rfl⟩) b
  case addOrUpdateCredit x n camp =>
    obtain ⟨_, h3, h4⟩ := map_ok h
    cases h4
    cases hn
    unfold addOrUpdateCredit at h3
    obtain ⟨c, h5, rfl⟩ := map_ok h3
    rw [doAddCredit_ok hi] at h5
    cases h5
    exact noting hi (Or.inl ⟨_, rfl⟩) b
  case evmUpdateCredit caller user n add =>
    obtain ⟨⟨c, fl⟩, h3, h4⟩ := map_ok h
    cases h4
    cases fl with
    | false => cases hn
    | true =>
      simp only [notes] at hn
      have key : ∃ x, s.evmToAccount user = some x ∧
          ((∃ d, c = writeCore s.core x d (currentEra cfg s)) ∨
          c = { s.core with userCredit := s.core.userCredit.erase x, history := s.core.history.erase x } ∨
          (c = s.core ∧ s.core.userCredit.get x = none)) := by
        unfold evmUpdateCredit at h3
        split at h3
        · cases h3
        · cases he : s.evmToAccount user with
          | none => rw [he] at hn; cases hn
          | some x =>
            rw [he] at h3
            simp only at h3
            refine ⟨x, rfl, ?_⟩
            split at h3
            · cases hg : s.core.userCredit.get x with
              | none => rw [hg] at h3; cases h3
              | some d =>
                rw [hg] at h3
                simp only at h3
                rw [doAddCredit_ok hi] at h3
                cases h3
                exact Or.inl ⟨_, rfl⟩
            · obtain ⟨c', h5, h6⟩ := map_ok h3
              cases h6
              exact slash_noting h5
      obtain ⟨x, h5, h6⟩ := key
      rw [h5] at hn
      cases hn
      exact noting hi h6 b
  case slashCredit x n =>
    obtain ⟨c, h3, h4⟩ := map_ok h
    cases h4
    cases hn
    exact noting hi (slash_noting h3) b
  case unstakingSlash x =>
    obtain ⟨_, h3, h4⟩ := map_ok h
    cases h4
    cases hn
    obtain ⟨_, d, -, -, rfl⟩ := unstakingSlash_ok h3
    exact noting hi (Or.inl ⟨_, rfl⟩) b
  case unstakingSlashCredit who x =>
    obtain ⟨_, h3, h4⟩ := map_ok h
    cases h4
    cases hn
    obtain ⟨_, d, -, -, rfl⟩ := unstakingSlash_ok (admin_ok h3).2
    exact noting hi (Or.inl ⟨_, rfl⟩) b
  case addOrUpdateCreditData x d =>
    split at h
    · obtain ⟨c, h3, h4⟩ := map_ok h
      cases h4
      cases hn
      rw [doAddCredit_ok hi] at h3
      cases h3
      exact noting hi (Or.inl ⟨_, rfl⟩) b
    · cases h
  case externalSetCreditData who x d =>
    obtain ⟨_, h3, h4⟩ := map_ok h
    cases h4
    cases hn
    have h3 := (admin_ok h3).2
    split at h3
    · obtain ⟨c, h5, rfl⟩ := map_ok h3
      rw [doAddCredit_ok hi] at h5
      cases h5
      exact noting hi (Or.inl ⟨_, rfl⟩) b
    · cases h3
  case getReward => obtain ⟨_, _, h4⟩ := map_ok h; cases h4; cases hn
  case forceModifyHistory => obtain ⟨_, _, h4⟩ := map_ok h; cases h4; cases hn
  all_goals first
    | (cases h; cases hn; done)
    | (obtain ⟨_, _, h4⟩ := map_ok h; cases h4; cases hn; done)

/-- Operations that leave all histories alone. -/
theorem quiet_step (cfg : Cfg) (s : State) (hi : CoreInv False (currentEra cfg s) s.core) (op : Op)
    (hn : notes s op (step cfg s op).2 = none)
    (h1 : ∀ a x y, op ≠ .getReward a x y) (h2 : ∀ a era, op ≠ .forceModifyHistory a era)
    (h3 : ∀ a, op ≠ .initDelegatorHistory a) (b : AccId) :
    historyOf (step cfg s op).1.core b = historyOf s.core b := by
  unfold step at hn ⊢
  cases h : body cfg s op with
  | error e => cases e <;> rfl
  | ok r =>
  obtain ⟨s', o⟩ := r
  rw [h] at hn
  simp only at hn ⊢
  cases op <;> simp only [body] at h
  case traffic x =>
    obtain ⟨⟨s1, fl⟩, h3, h4⟩ := map_ok h
    cases h4
    cases fl with
    | true => cases hn
    | false =>
      obtain ⟨-, -, h5, -⟩ := trafficCredit_ok h3
      rw [(h5 rfl).1]
  case tip x n =>
    obtain ⟨c, h3, h4⟩ := map_ok h
    cases h4
    simp only [notes] at hn
    split at hn
    · rename_i hob
      unfold tipCredit at h3
      rw [hob] at h3
      cases h3; rfl
    · cases hn
  case evmUpdateCredit caller user n add =>
    obtain ⟨⟨c, fl⟩, h3, h4⟩ := map_ok h
    cases h4
    have : c = s.core := by
      rcases evmUpdateCredit_ok h3 with h5 | ⟨a, d, -, h6, rfl, -⟩
      · exact h5
      · simp only [notes] at hn; rw [h6] at hn; cases hn
    simp only [this]
  case «initialize» => cases h; rw [(onInitialize_core cfg s).1]
  case finalize => cases h; rw [(setPrice_core s).1]
  case runtimeUpgrade => cases h; rw [(onRuntimeUpgrade_core cfg s).1]
  case setDprPrice =>
    obtain ⟨_, h3, h4⟩ := map_ok h
    cases h4
    obtain ⟨_, _, _, rfl⟩ := setDprPrice_ok h3
    rfl
  case getReward a x y => exact absurd rfl (h1 a x y)
  case forceModifyHistory a e => exact absurd rfl (h2 a e)
  case initDelegatorHistory a => exact absurd rfl (h3 a)
  case addOrUpdateCreditData =>
    split at h
    · obtain ⟨_, _, h4⟩ := map_ok h; cases h4; cases hn
    · cases h
  case setMaintain =>
    obtain ⟨_, h3, h4⟩ := map_ok h
    cases h4
    have h3 := (deviceAdmin_ok h3).2
    split at h3 <;> (cases h3; rfl)
  case unsetMaintain =>
    obtain ⟨_, h3, h4⟩ := map_ok h
    cases h4
    have h3 := (deviceAdmin_ok h3).2
    cases h3; rfl
  case setSwitchCampaign =>
    obtain ⟨_, h3, h4⟩ := map_ok h
    cases h4
    have h3 := (admin_ok h3).2
    split at h3
    · cases h3; rfl
    · cases h3
  all_goals first
    | (cases h; rfl)
    | (obtain ⟨_, _, h4⟩ := map_ok h; cases h4; cases hn; done)
    | (obtain ⟨_, h3, h4⟩ := map_ok h; cases h4; have h3 := (admin_ok h3).2; cases h3; rfl)

/-! ### Rewriting by root -/

theorem split_at_era {h : List (Nat × Data)} (hp : h.Pairwise (fun x y => x.1 < y.1)) (era : Nat) :
    h = h.filter (fun e => e.1 ≤ era) ++ h.filter (fun e => era < e.1) := by
  induction h with
  | nil => rfl
  | cons e rest ih =>
    rw [List.pairwise_cons] at hp
    by_cases he : e.1 ≤ era
    · have : ¬ era < e.1 := by omega
      simp only [List.filter_cons, he, this, decide_true, if_true, decide_false, Bool.false_eq_true,
        if_false, List.cons_append]
      rw [← ih hp.2]
    · have h' : era < e.1 := by omega
      have hnil : rest.filter (fun e => decide (e.1 ≤ era)) = [] := by
        rw [List.filter_eq_nil_iff]
        intro x hx
        have := hp.1 x hx
        simp only [decide_eq_true_eq]; omega
      have hall : rest.filter (fun e => decide (era < e.1)) = rest := by
        rw [List.filter_eq_self]
        intro x hx
        have := hp.1 x hx
        simp only [decide_eq_true_eq]; omega
      simp [List.filter_cons, he, h', hnil, hall]

theorem modifyPos_at {l1 l2 : List (Nat × Data)} {era : Nat} {e : Nat × Data}
    (h1 : ∀ x ∈ l1, x.1 ≤ era) (he : e.1 ≤ era) (h2 : ∀ x ∈ l2, era < x.1) :
    modifyPos (l1 ++ [e] ++ l2) era = some l1.length := by
  unfold modifyPos
  rw [List.find?_range_eq_some]
  refine ⟨?_, by simp, ?_⟩
  · have g1 : (l1 ++ [e] ++ l2)[l1.length]? = some e := by simp
    have g2 : (l1 ++ [e] ++ l2)[l1.length + 1]? = l2.head? := by
      rw [List.getElem?_append_right (by simp)]
      simp [List.head?_eq_getElem?]
    rw [g1, g2]
    cases l2 with
    | nil => simp [he]
    | cons y ys =>
      have := h2 y (by simp)
      simp [he, this]
  · intro j hj
    have g1 : (l1 ++ [e] ++ l2)[j]? = some l1[j] := by
      rw [List.getElem?_append_left (by simp; omega), List.getElem?_append_left hj]
      simp [hj]
    have g2 : ∃ x, (l1 ++ [e] ++ l2)[j + 1]? = some x ∧ x.1 ≤ era := by
      by_cases hj' : j + 1 < l1.length
      · refine ⟨l1[j + 1], ?_, h1 _ (List.getElem_mem _)⟩
        rw [List.getElem?_append_left (by simp; omega), List.getElem?_append_left hj']
        simp [hj']
      · have : j + 1 = l1.length := by omega
        exact ⟨e, by rw [this]; simp, he⟩
    obtain ⟨x, g2, g3⟩ := g2
    rw [g1, g2]
    simp only [Bool.not_eq_eq_eq_not, Bool.not_true, decide_eq_false_iff_not]
    omega

theorem modifyPos_none {h : List (Nat × Data)} {era : Nat} (hn : ∀ x ∈ h, era < x.1) :
    modifyPos h era = none := by
  unfold modifyPos
  rw [List.find?_eq_none]
  intro i hi
  simp only [List.mem_range] at hi
  have := hn h[i] (List.getElem_mem _)
  rw [List.getElem?_eq_getElem hi]
  cases h[i + 1]? with
  | none => simp only [decide_eq_true_eq]; omega
  | some y => simp only [decide_eq_true_eq]; omega

theorem rebase_ok {c : Core} {era cur : Nat} (hi : CoreInv False cur c) (a : AccId) :
    (forceModifyHistory c a era = .error (.err .accountNotFound) ∨
      forceModifyHistory c a era = .error (.err .badEraOrHistory)) ∧ (∀ e ∈ historyOf c a, era < e.1) ∨
    (∃ e ∈ historyOf c a, e.1 ≤ era) ∧ forceModifyHistory c a era
      = .ok { c with history := c.history.insert a (rebased (historyOf c a) era) } := by
  unfold forceModifyHistory
  cases hg : c.history.get a with
  | none => left; simp [historyOf, hg]
  | some h =>
    have hh : historyOf c a = h := by simp [historyOf, hg]
    rw [hh]
    simp only
    obtain ⟨hp, -⟩ := hi.chron a h hg
    have hs := split_at_era hp era
    cases hl : h.filter (fun e => decide (e.1 ≤ era)) using List.reverseRecOn with
    | nil =>
      have hn : ∀ x ∈ h, era < x.1 := by
        intro x hx
        rw [List.filter_eq_nil_iff] at hl
        have := hl x hx
        simp only [decide_eq_true_eq] at this; omega
      left
      rw [modifyPos_none hn]
      exact ⟨Or.inr rfl, hn⟩
    | append_singleton l1 e _ =>
      right
      have hm : ∀ x ∈ l1 ++ [e], x ∈ h ∧ x.1 ≤ era := by
        intro x hx
        rw [← hl, List.mem_filter] at hx
        simpa using hx
      have hpos : modifyPos h era = some l1.length := by
        rw [hs, hl]
        apply modifyPos_at
        · exact fun x hx => (hm x (by simp [hx])).2
        · exact (hm e (by simp)).2
        · intro x hx
          rw [List.mem_filter] at hx
          simpa using hx.2
      refine ⟨⟨e, (hm e (by simp)).1, (hm e (by simp)).2⟩, ?_⟩
      rw [hpos]
      simp only
      have hd : h.drop l1.length = e :: h.filter (fun e => decide (era < e.1)) := by
        conv => lhs; rw [hs, hl]
        simp
      rw [hd]
      simp only [rebased, hl, List.getLast?_concat]

/-! ### Reward queries -/

theorem noted_twice (h : List (Nat × Data)) (era : Nat) (d d' : Data) :
    noted (noted h era d) era d' = noted h era d' := by
  unfold noted
  by_cases hn : h = []
  · simp [hn]
  · simp [hn, List.filter_append, List.filter_filter]

theorem query_step {cfg : Cfg} {s : State} (hat : cfg.attenuationStep ≠ 2 ^ 64 - 1)
    (hi : CoreInv False (currentEra cfg s) s.core) {a : AccId} {x y : Nat} {c' : Core}
    {r : Option Balance} (h : getReward cfg s a x y = .ok (c', r)) :
    (∀ b, b ≠ a → historyOf c' b = historyOf s.core b) ∧
    (s.core.userCredit.get a = none → historyOf c' a = historyOf s.core a) ∧
    (∀ d, s.core.userCredit.get a = some d →
      historyAfterQuery cfg s a x y d (historyOf c' a) (historyOf s.core a)) := by
  cases hd : s.core.userCredit.get a with
  | none =>
    have : c' = s.core := by
      unfold getReward at h
      simp only [hd] at h
      split at h <;> (cases h; rfl)
    rw [this]
    exact ⟨fun _ _ => rfl, fun _ => rfl, fun _ hx => by cases hx⟩
  | some d =>
    by_cases hreach : reaches cfg s x y d
    rotate_left
    · have hc : c' = s.core := by
        unfold reaches at hreach
        unfold getReward at h
        simp only [hd] at h
        split at h
        · cases h; rfl
        · split at h
          · cases h; rfl
          · exfalso; omega
      rw [hc]
      refine ⟨fun _ _ => rfl, fun _ => rfl, fun d' hd' => ?_⟩
      cases hd'
      exact ⟨fun hx => absurd hx hreach, fun hx => absurd hx hreach, fun _ => rfl⟩
    obtain ⟨h1, h2, h3⟩ := id hreach
    have hrec := getReward_record hat h a
    rw [if_pos rfl, hd] at hrec
    obtain ⟨c2, hso, hcase⟩ := getReward_shape hd h3 h1 h2 h
    obtain ⟨f1, f2, f3⟩ := firstHistory cfg s a d
    have i1 : CoreInv False (currentEra cfg s) (if (historyOf s.core a).isEmpty = true then
        initHistory s.core a d (currentEra cfg s) else s.core) := by
      split
      · exact initHistory_inv hi hd
      · exact hi
    have g1 : historyOf (if (historyOf s.core a).isEmpty = true then
        initHistory s.core a d (currentEra cfg s) else s.core) a =
        if historyOf s.core a = [] then [(currentEra cfg s, d)] else historyOf s.core a := by
      by_cases hn : historyOf s.core a = []
      · simp [hn]; simp [initHistory, historyOf]
      · simp [hn]
    have g2 : ∀ b, b ≠ a → historyOf (if (historyOf s.core a).isEmpty = true then
        initHistory s.core a d (currentEra cfg s) else s.core) b = historyOf s.core b := by
      intro b hb
      split
      · simp [initHistory, historyOf, FMap.get_insert_ne _ _ hb]
      · rfl
    generalize (if (historyOf s.core a).isEmpty = true then
      initHistory s.core a d (currentEra cfg s) else s.core) = c1 at *
    have i2 := slashOffline_inv i1 hso
    -- the penalty
    have hpen : (∀ b, b ≠ a → historyOf c2 b = historyOf c1 b) ∧
        ((0 < s.erasOffline a ∧ s.erasOffline a % 3 = 0 ∧ a ∉ s.maintain) →
          ∃ d2, c2.userCredit.get a = some d2 ∧ historyOf c2 a = noted (historyOf c1 a) (currentEra cfg s) d2) ∧
        (¬ (0 < s.erasOffline a ∧ s.erasOffline a % 3 = 0 ∧ a ∉ s.maintain) → c2 = c1) := by
      unfold slashOffline at hso
      by_cases ho : 0 < s.erasOffline a ∧ s.erasOffline a % 3 = 0
      · rw [if_pos ho] at hso
        by_cases hm : a ∈ s.maintain
        · simp only [hm, decide_true, if_true] at hso
          cases hso
          exact ⟨fun _ _ => rfl, fun hx => absurd hm hx.2.2, fun _ => rfl⟩
        · simp only [hm, decide_false, Bool.false_eq_true, if_false] at hso
          rw [slashCredit_some (by rw [f1]; exact hd)] at hso
          simp only [Option.getD_none, u64Max, hat, if_false, Except.ok.injEq] at hso
          subst hso
          refine ⟨fun b hb => by rw [write_noted i1, if_neg hb], fun _ => ?_, fun hx => absurd ⟨ho.1, ho.2, hm⟩ hx⟩
          exact ⟨_, by rw [writeCore_uc, FMap.get_insert_self], by rw [write_noted i1, if_pos rfl]⟩
      · rw [if_neg ho] at hso
        cases hso
        exact ⟨fun _ _ => rfl, fun hx => absurd ⟨hx.1, hx.2.1⟩ ho, fun _ => rfl⟩
    have hne : historyOf c2 a ≠ [] := by
      by_cases hp : 0 < s.erasOffline a ∧ s.erasOffline a % 3 = 0 ∧ a ∉ s.maintain
      · obtain ⟨d2, -, h4⟩ := hpen.2.1 hp
        rw [h4]
        unfold noted
        rw [if_neg f2]; simp
      · rw [hpen.2.2 hp]; exact f2
    have hper := (slashOffline_history hso hne).2
    rw [f3] at hper
    rw [hper] at hcase
    have fin : ∀ c3, (∀ b, b ≠ a → historyOf c3 b = historyOf c2 b) →
        ∀ b, b ≠ a → historyOf c3 b = historyOf s.core b := by
      intro c3 hc3 b hb
      rw [hc3 b hb, hpen.1 b hb, g2 b hb]
    rcases hcase with ⟨rfl, hx⟩ | ⟨hx, -, hs⟩
    · have hx' : ¬ (x = periodStart (historyOf s.core a) (currentEra cfg s) + d.rewardEras - 1 ∨
          d.campaign ≤ 6) := by
        rcases hx with hx | hx
        · exact absurd hx hne
        · omega
      refine ⟨fin _ (fun _ _ => rfl), fun hx => by simp at hx, fun d' hd' => ?_⟩
      cases hd'
      refine ⟨fun _ ht => ?_, fun _ ht => ?_, fun hx => absurd hreach hx⟩
      · rcases ht with ht | ht
        · obtain ⟨d2, h4, h5⟩ := hpen.2.1 ht
          rw [h4] at hrec
          simp only [Option.map_some, Option.some.injEq] at hrec
          rw [h5, g1, hrec]
        · exact absurd ht.1 hx'
      · rw [hpen.2.2 (fun hq => ht (Or.inl hq)), g1]
    · unfold switchCampaign at hs
      change (match successor s a d with | none => _ | some new => _) = _ at hs
      cases hsu : successor s a d with
      | none =>
        rw [hsu] at hs
        cases hs
        refine ⟨fin _ (fun _ _ => rfl), fun hx => by simp at hx, fun d' hd' => ?_⟩
        cases hd'
        refine ⟨fun _ ht => ?_, fun _ ht => ?_, fun hx => absurd hreach hx⟩
        · rcases ht with ht | ht
          · obtain ⟨d2, h4, h5⟩ := hpen.2.1 ht
            rw [h4] at hrec
            simp only [Option.map_some, Option.some.injEq] at hrec
            rw [h5, g1, hrec]
          · exact absurd hsu ht.2
        · rw [hpen.2.2 (fun hq => ht (Or.inl hq)), g1]
      | some new =>
        rw [hsu] at hs
        simp only [updateHistory_insert, Except.ok.injEq] at hs
        subst hs
        refine ⟨fin _ (fun b hb => by rw [write_noted i2, if_neg hb]), fun hx => by simp at hx, fun d' hd' => ?_⟩
        cases hd'
        refine ⟨fun _ ht => ?_, fun _ ht => absurd (Or.inr ⟨hx, by rw [hsu]; simp⟩) ht, fun hx => absurd hreach hx⟩
        rw [write_noted i2, if_pos rfl]
        rw [writeCore_uc, FMap.get_insert_self] at hrec
        simp only [Option.map_some, Option.some.injEq] at hrec
        rw [hrec]
        by_cases hp : 0 < s.erasOffline a ∧ s.erasOffline a % 3 = 0 ∧ a ∉ s.maintain
        · obtain ⟨d2, -, h5⟩ := hpen.2.1 hp
          rw [h5, noted_twice, g1]
        · rw [hpen.2.2 hp, g1]

/-- **C96**: in every state reached by a history (in which root does not date history entries into
the future) every operation has exactly the stated effect on the recorded history of every account:
changes of a record are noted for the current era in an existing history; a reward query starts the
history; starting a delegation resets it to the present record; root can make it begin at a given era.
Nothing else changes a history. -/
theorem C96_history_table (cfg : Cfg) (hat : cfg.attenuationStep ≠ 2 ^ 64 - 1) (bank : Bank)
    (settings : List Setting) (users : List (AccId × Data)) (ops : List Op)
    (ht : ∀ e ∈ (run cfg (genesis bank settings users) ops).2, timely cfg e.1 e.2.1)
    (s : State) (hs : s = (run cfg (genesis bank settings users) ops).1) (op : Op) (b : AccId) :
    let s' := (step cfg s op).1
    let out := (step cfg s op).2
    let era := currentEra cfg s
    (∀ a, notes s op out = some a → historyOf s'.core b =
      if b = a then note era (historyOf s.core b) (s'.core.userCredit.get b) else historyOf s.core b) ∧
    (∀ a x y r, op = .getReward a x y → out = .reward r →
      (b ≠ a ∨ s.core.userCredit.get b = none → historyOf s'.core b = historyOf s.core b) ∧
      (∀ d, b = a → s.core.userCredit.get b = some d →
        historyAfterQuery cfg s b x y d (historyOf s'.core b) (historyOf s.core b))) ∧
    (∀ a, op = .initDelegatorHistory a → historyOf s'.core b =
      if b = a then (match s.core.userCredit.get b with | some d => [(era, d)] | none => []) else historyOf s.core b) ∧
    (∀ a e, op = .forceModifyHistory a e → historyOf s'.core b =
      if b = a then rebased (historyOf s.core b) e else historyOf s.core b) ∧
    (notes s op out = none → (∀ a x y r, op = .getReward a x y → out ≠ .reward r) →
      (∀ a, op ≠ .initDelegatorHistory a) → (∀ a e, op ≠ .forceModifyHistory a e) →
      historyOf s'.core b = historyOf s.core b) := by
  subst hs
  have hi := (run_inv (lv := False) (genesis_inv cfg bank settings users False.elim) ht).1
  generalize (run cfg (genesis bank settings users) ops).1 = s at *
  refine ⟨?_, ?_, ?_, ?_, ?_⟩
  · intro a hn
    rw [note_step cfg s hi op a hn b]
    split
    · rename_i hb; subst hb; rfl
    · rfl
  · rintro a x y r rfl ho
    unfold step at ho ⊢
    cases hb : body cfg s (.getReward a x y) with
    | error e => rw [hb] at ho; cases e <;> cases ho
    | ok p =>
      obtain ⟨s1, o⟩ := p
      simp only [body] at hb
      obtain ⟨⟨c, r'⟩, h1, h2⟩ := map_ok hb
      cases h2
      obtain ⟨q1, q2, q3⟩ := query_step hat hi h1
      refine ⟨?_, ?_⟩
      · intro h
        by_cases hba : b = a
        · subst hba
          rcases h with h | h
          · exact absurd rfl h
          · exact q2 h
        · exact q1 b hba
      · rintro d rfl hd
        exact q3 d hd
  · rintro a rfl
    show historyOf (initDelegatorHistory (currentEra cfg s) s.core a) b = _
    unfold initDelegatorHistory
    by_cases hb : b = a
    · subst hb
      rw [if_pos rfl]
      cases hd : s.core.userCredit.get b with
      | none => exact no_record hi hd
      | some d => simp [initHistory, historyOf]
    · rw [if_neg hb]
      cases hd : s.core.userCredit.get a with
      | none => rfl
      | some d => simp [initHistory, historyOf, FMap.get_insert_ne _ _ hb]
  · rintro a e rfl
    simp only [step, body]
    rcases rebase_ok (era := e) hi a with ⟨h1, h2⟩ | ⟨h1, h2⟩
    · have hr : rebased (historyOf s.core a) e = historyOf s.core a := by
        unfold rebased
        have : (historyOf s.core a).filter (fun x => decide (x.1 ≤ e)) = [] := by
          rw [List.filter_eq_nil_iff]
          intro x hx
          have := h2 x hx
          simp only [decide_eq_true_eq]; omega
        rw [this]; rfl
      have : (if b = a then rebased (historyOf s.core b) e else historyOf s.core b) = historyOf s.core b := by
        split
        · rename_i hb; subst hb; exact hr
        · rfl
      rw [this]
      rcases h1 with h1 | h1 <;> rw [h1] <;> rfl
    · rw [h2]
      show historyOf { s.core with history := s.core.history.insert a (rebased (historyOf s.core a) e) } b = _
      unfold historyOf
      simp only [FMap.get_insert]
      split
      · rename_i hb; subst hb; rfl
      · rfl
  · intro hn h1 h2 h3
    by_cases hg : ∃ a x y, op = .getReward a x y
    · obtain ⟨a, x, y, rfl⟩ := hg
      have h1 := h1 a x y
      unfold step at h1 ⊢
      cases hb : body cfg s (.getReward a x y) with
      | error e => cases e <;> rfl
      | ok p =>
        obtain ⟨s1, o⟩ := p
        rw [hb] at h1
        simp only [body] at hb
        obtain ⟨⟨c, r'⟩, _, h4⟩ := map_ok hb
        cases h4
        exact absurd rfl (h1 r' rfl)
    · exact quiet_step cfg s hi op hn (fun a x y h => hg ⟨a, x, y, h⟩) (fun a e => h3 a e) h2 b

/-! ### Acceptance -/

theorem withdraw_iff (b : Bank) (a : AccId) (v : Balance) :
    (∃ b', b.withdraw a v true = .ok b') ↔ spendable b a v := by
  unfold Bank.withdraw spendable
  by_cases h0 : v = 0
  · simp [h0]
  rw [if_neg h0]
  by_cases h1 : b.free a < v
  · rw [if_pos h1]
    constructor
    · rintro ⟨_, h⟩; cases h
    · rintro (h | ⟨h, -⟩) <;> omega
  rw [if_neg h1]
  by_cases h2 : b.free a - v < b.ed ∧ b.ed ≤ b.free a
  · rw [if_pos ⟨rfl, h2⟩]
    constructor
    · rintro ⟨_, h⟩; cases h
    · rintro (h | ⟨h, h'⟩) <;> omega
  rw [if_neg (fun h => h2 h.2)]
  by_cases h3 : b.free a - v < b.frozen a
  · rw [if_pos h3]
    constructor
    · rintro ⟨_, h⟩; cases h
    · rintro (h | ⟨h, -⟩) <;> omega
  rw [if_neg h3, if_neg (fun h => h2 ⟨h.1, h.2.1⟩)]
  exact ⟨fun _ => Or.inr (by omega), fun _ => ⟨_, rfl⟩⟩

theorem le_foldl_max (l : List Nat) (m x : Nat) : x ≤ l.foldl max m ↔ x ≤ m ∨ ∃ y ∈ l, x ≤ y := by
  induction l generalizing m with
  | nil => simp
  | cons z zs ih =>
    simp only [List.foldl_cons, ih, List.mem_cons]
    constructor
    · rintro (h | ⟨y, hy, h⟩)
      · by_cases hz : x ≤ z
        · exact Or.inr ⟨z, Or.inl rfl, hz⟩
        · left; omega
      · exact Or.inr ⟨y, Or.inr hy, h⟩
    · rintro (h | ⟨y, rfl | hy, h⟩)
      · left; omega
      · left; omega
      · exact Or.inr ⟨y, hy, h⟩

theorem ceiling_iff (cfg : Cfg) (h : List (Nat × Data)) (x : Nat) :
    x ≤ burnCeiling cfg h ↔ x ≤ cfg.minCredit ∨ ∃ e ∈ h, x ≤ e.2.credit := by
  have hm : x ≤ maxHistoric h ↔ x = 0 ∨ ∃ e ∈ h, x ≤ e.2.credit := by
    unfold maxHistoric
    rw [le_foldl_max]
    simp only [List.mem_map, Nat.le_zero]
    constructor
    · rintro (h1 | ⟨y, ⟨e, he, rfl⟩, h1⟩)
      · exact Or.inl h1
      · exact Or.inr ⟨e, he, h1⟩
    · rintro (h1 | ⟨e, he, h1⟩)
      · exact Or.inl h1
      · exact Or.inr ⟨_, ⟨e, he, rfl⟩, h1⟩
  unfold burnCeiling
  by_cases hn : h = []
  · simp [hn]
  have : h.isEmpty = false := by simpa using hn
  rw [this]
  simp only [Bool.false_eq_true, if_false]
  by_cases hlt : cfg.minCredit < maxHistoric h
  · rw [if_pos hlt, hm]
    constructor
    · rintro (h1 | h1)
      · left; omega
      · exact Or.inr h1
    · rintro (h1 | h1)
      · exact hm.1 (by omega)
      · exact Or.inr h1
  · rw [if_neg hlt]
    constructor
    · exact Or.inl
    · rintro (h1 | h1)
      · exact h1
      · have := hm.2 (Or.inr h1); omega

theorem check_iff (s : State) (d : Data) : checkCreditData s d = true ↔ d.level = .ofScore d.credit ∧
    d.referees ≤ ((s.settings.get (d.campaign, d.initialLevel)).getD default).maxReferees := by
  unfold checkCreditData
  simp only [Bool.and_eq_true, decide_eq_true_eq]
  constructor
  · rintro ⟨h1, h2⟩; exact ⟨h1.symm, h2⟩
  · rintro ⟨h1, h2⟩; exact ⟨h1.symm, h2⟩

theorem good_iff (cfg : Cfg) (s : State) (op : Op) :
    (step cfg s op).2.good = true ↔ ∃ s' o, body cfg s op = .ok (s', o) ∧ o.good = true := by
  unfold step
  cases body cfg s op with
  | ok r =>
    obtain ⟨s', o⟩ := r
    simp only [Except.ok.injEq, Prod.mk.injEq]
    constructor
    · exact fun h => ⟨s', o, ⟨rfl, rfl⟩, h⟩
    · rintro ⟨_, _, ⟨rfl, rfl⟩, h⟩; exact h
  | error e => cases e <;> simp [Out.good]

theorem map_good {α : Type} {x : Except Fail α} {f : α → State × Out} (hf : ∀ y, (f y).2.good = true) :
    (∃ s' o, x.map f = .ok (s', o) ∧ o.good = true) ↔ ∃ y, x = .ok y := by
  constructor
  · rintro ⟨s', o, h, -⟩
    obtain ⟨y, hy, -⟩ := map_ok h
    exact ⟨y, hy⟩
  · rintro ⟨y, rfl⟩
    exact ⟨(f y).1, (f y).2, rfl, hf y⟩

theorem admin_iff (s : State) (who : AccId) (k : Except Fail State) :
    (∃ y, admin s who k = .ok y) ↔ s.isAdmin who = true ∧ ∃ y, k = .ok y := by
  unfold admin
  cases s.isAdmin who <;> simp

theorem deviceAdmin_iff (s : State) (who : AccId) (k : Except Fail State) :
    (∃ y, deviceAdmin s who k = .ok y) ↔ s.isDeviceAdmin who = true ∧ ∃ y, k = .ok y := by
  unfold deviceAdmin
  cases s.isDeviceAdmin who <;> simp

theorem slash_iff (cfg : Cfg) (era : Nat) (c : Core) (a : AccId) (n : Option Nat) :
    (∃ y, slashCredit cfg era c a n = .ok y) ↔
      c.userCredit.get a ≠ none ∨ n.getD cfg.attenuationStep = 2 ^ 64 - 1 := by
  cases hg : c.userCredit.get a with
  | none =>
    rw [slashCredit_none hg]
    by_cases hp : n.getD cfg.attenuationStep = u64Max
    · rw [if_pos hp]; simp only [u64Max] at hp; simp [hp]
    · rw [if_neg hp]; simp only [u64Max] at hp; simp [hp]
  | some d => rw [slashCredit_some hg]; simp

theorem unstaking_iff (cfg : Cfg) (s : State) (a : AccId) : (∃ y, unstakingSlash cfg s a = .ok y) ↔
    s.core.userCredit.get a ≠ none ∧ s.stakingCredit.get a ≠ none := by
  constructor
  · rintro ⟨y, h⟩
    obtain ⟨st, d, h1, h2, -⟩ := unstakingSlash_ok h
    rw [h1, h2]; simp
  · rintro ⟨h1, h2⟩
    obtain ⟨d, h1⟩ := Option.ne_none_iff_exists'.1 h1
    obtain ⟨st, h2⟩ := Option.ne_none_iff_exists'.1 h2
    unfold unstakingSlash
    simp [h2, creditScore, h1, updateHistory_insert, Except.map]

/-- **C95** (a): in every state reached by a history (root not dating history entries into the
future) an operation other than a reward query (C18) is carried out exactly under the stated
conditions; otherwise it changes nothing. -/
theorem C95_accepted (cfg : Cfg) (bank : Bank)
    (settings : List Setting) (users : List (AccId × Data)) (ops : List Op)
    (ht : ∀ e ∈ (run cfg (genesis bank settings users) ops).2, timely cfg e.1 e.2.1)
    (s : State) (hs : s = (run cfg (genesis bank settings users) ops).1) (op : Op)
    (hop : ∀ a x y, op ≠ .getReward a x y) :
    ((step cfg s op).2.good = true ↔ accepted cfg s op) ∧
    ((step cfg s op).2.good = false → (step cfg s op).1 = s) := by
  subst hs
  have hi := (run_inv (lv := False) (genesis_inv cfg bank settings users False.elim) ht).1
  generalize (run cfg (genesis bank settings users) ops).1 = s at *
  clear ht
  constructor
  rotate_left
  · intro h
    unfold step at h ⊢
    cases hb : body cfg s op with
    | error e => cases e <;> rfl
    | ok r =>
      exfalso
      rw [hb] at h
      obtain ⟨s', o⟩ := r
      simp only at h
      cases op <;> simp only [body] at hb
      case addOrUpdateCreditData =>
        split at hb
        · obtain ⟨_, _, h4⟩ := map_ok hb; cases h4; simp [Out.good] at h
        · cases hb
      all_goals first
        | (cases hb; simp [Out.good] at h; done)
        | (obtain ⟨_, _, h4⟩ := map_ok hb; cases h4; simp [Out.good] at h; done)
  rw [good_iff]
  cases op <;> simp only [body, accepted]
  case getReward a x y => exact absurd rfl (hop a x y)
  case burnForCredit a n =>
    rw [map_good (fun _ => rfl)]
    constructor
    · rintro ⟨y, h⟩
      obtain ⟨d, b, h1, h2, h3, -⟩ := burnForCredit_ok h
      refine ⟨d, h1, ?_, (withdraw_iff _ _ _).1 ⟨b, h3⟩⟩
      exact (ceiling_iff _ _ _).1 h2
    · rintro ⟨d, h1, h2, h3⟩
      obtain ⟨b, h3⟩ := (withdraw_iff _ _ _).2 h3
      have h2 := (ceiling_iff cfg _ _).2 h2
      have h2 : ¬ burnCeiling cfg (historyOf s.core a) < satAdd64 d.credit n := Nat.not_lt.2 h2
      unfold burnForCredit
      rw [h1]
      simp only
      rw [if_neg h2, h3, updateCredit_some h1]
      simp [updateHistory_insert, Except.map]
  case burnNft a cls k =>
    rw [map_good (fun _ => rfl)]
    constructor
    · rintro ⟨y, h⟩
      obtain ⟨c, d, h1, h2, h3, h4, -⟩ := burnNft_ok h
      exact ⟨by rw [h2]; simp, h4, c, h1, h3⟩
    · rintro ⟨h1, rfl, c, h2, h3⟩
      obtain ⟨d, h1⟩ := Option.ne_none_iff_exists'.1 h1
      unfold burnNft
      rw [h2]
      simp only
      rw [if_neg (by omega)]
      simp [nftCredit, updateCredit_some h1, updateHistory_insert, Except.map]
  case setDprPrice who p =>
    rw [map_good (fun _ => rfl)]
    have hw : withinRate s.priceDiffRate s.dprPrice p = true ↔
        ∀ rate old, s.priceDiffRate = some rate → s.dprPrice = some old →
          max p old - min p old ≤ divNearestDown (old * rate) 100 := by
      unfold withinRate
      cases h1 : s.priceDiffRate with
      | none => simp
      | some rate =>
        cases h2 : s.dprPrice with
        | none => simp
        | some old =>
          have h7 : (if old < p then p - old else old - p) = max p old - min p old := by
            split <;> omega
          simp [h7, percentMul]
    rw [← hw]
    constructor
    · rintro ⟨y, h⟩
      obtain ⟨h1, h2, h3, -⟩ := setDprPrice_ok h
      exact ⟨h1, h2, h3⟩
    · rintro ⟨h1, h2, h3⟩
      refine ⟨{ s with currentPrices := s.currentPrices ++ [p] }, ?_⟩
      unfold setDprPrice
      rw [if_neg h1, h2, h3]
      rfl
  case addOrUpdateCreditData a d =>
    rw [← check_iff]
    cases checkCreditData s d with
    | false => simp
    | true =>
      simp only [if_true]
      rw [map_good (fun _ => rfl), doAddCredit_ok hi]
      simp
  case externalSetCreditData who a d =>
    rw [map_good (fun _ => rfl), admin_iff, ← check_iff]
    cases checkCreditData s d with
    | false => simp
    | true => simp [doAddCredit_ok hi, Except.map]
  case unstakingSlash a => rw [map_good (fun _ => rfl), unstaking_iff]
  case unstakingSlashCredit who a => rw [map_good (fun _ => rfl), admin_iff, unstaking_iff]
  case slashCredit a n => rw [map_good (fun _ => rfl), slash_iff]
  case forceModifyHistory a e =>
    rw [map_good (fun _ => rfl)]
    rcases rebase_ok (era := e) hi a with ⟨h1, h2⟩ | ⟨h1, h2⟩
    · have : ¬ ∃ x ∈ historyOf s.core a, x.1 ≤ e := by
        rintro ⟨x, hx, h3⟩
        have := h2 x hx
        omega
      rcases h1 with h1 | h1 <;> simp only [h1, this, iff_false] <;> rintro ⟨_, h⟩ <;> cases h
    · rw [h2]; exact ⟨fun _ => h1, fun _ => ⟨_, rfl⟩⟩
  case evmUpdateCredit caller user n add =>
    rw [map_good (fun _ => rfl)]
    unfold evmUpdateCredit
    cases ho : s.isEvmOperator caller with
    | false => simp
    | true =>
      simp only [Bool.not_true, Bool.false_eq_true, if_false]
      cases he : s.evmToAccount user with
      | none => simp
      | some a =>
        cases add with
        | true =>
          cases hg : s.core.userCredit.get a with
          | none => simp [hg]
          | some d => simp [hg, doAddCredit_ok hi, Except.map]
        | false =>
          simp only [Bool.false_eq_true, if_false, Option.some.injEq, forall_eq', true_implies]
          have := slash_iff cfg (currentEra cfg s) s.core a (some n)
          simp only [Option.getD_some] at this
          rw [← this]
          constructor
          · rintro ⟨y, h⟩
            obtain ⟨z, h1, -⟩ := map_ok h
            exact ⟨z, h1⟩
          · rintro ⟨y, h⟩
            rw [h]
            exact ⟨_, rfl⟩
  case tip a n =>
    rw [map_good (fun _ => rfl)]
    simp only [iff_true]
    unfold tipCredit
    cases s.onboard a with
    | none => exact ⟨_, rfl⟩
    | some ob =>
      simp only
      cases hg : s.core.userCredit.get a with
      | none => rw [updateCredit_none hg]; exact ⟨_, rfl⟩
      | some d => rw [updateCredit_some hg]; simp [updateHistory_insert]
  case traffic a =>
    rw [map_good (fun _ => rfl)]
    simp only [iff_true]
    unfold trafficCredit
    cases s.onboard a with
    | none => exact ⟨_, rfl⟩
    | some ob =>
      simp only
      split
      · cases hg : s.core.userCredit.get a with
        | none => rw [updateCredit_none hg]; exact ⟨_, rfl⟩
        | some d => rw [updateCredit_some hg]; simp [updateHistory_insert]
      · exact ⟨_, rfl⟩
  case addOrUpdateCredit a n c =>
    rw [map_good (fun _ => rfl)]
    unfold addOrUpdateCredit
    simp [doAddCredit_ok hi, Except.map]
  case setSwitchCampaign who olds news =>
    rw [map_good (fun _ => rfl), admin_iff]
    by_cases hl : olds.length = news.length <;> simp [hl]
  case setMaintain who a => rw [map_good (fun _ => rfl), deviceAdmin_iff]; simp
  case unsetMaintain who a => rw [map_good (fun _ => rfl), deviceAdmin_iff]; simp
  all_goals first
    | (rw [map_good (fun _ => rfl), admin_iff]; simp; done)
    | (simp [Out.good]; done)

/-- **C95** (b): traffic raises the credit of an account (says so, and does it, C79) exactly if its
device is onboard, it has a record, and a full era has passed since the last raise in seconds, or
since the era of the last raise recorded in the old way, or since the era of onboarding. -/
theorem C95_traffic (cfg : Cfg) (s : State) (a : AccId) :
    (step cfg s (.traffic a)).2 = .flag true ↔
      s.core.userCredit.get a ≠ none ∧ ∃ ob, s.onboard a = some ob ∧
        (match s.lastUpdateTs.get a, s.lastUpdate.get a with
          | some ts, _ => 1 ≤ (s.now - ts) / (cfg.blocksPerEra * cfg.secsPerBlock)
          | none, some e => e < s.block / cfg.blocksPerEra
          | none, none => ob / cfg.blocksPerEra < s.block / cfg.blocksPerEra) := by
  have key : (step cfg s (.traffic a)).2 = .flag true ↔ ∃ s', trafficCredit cfg s a = .ok (s', true) := by
    unfold step
    simp only [body]
    cases h : trafficCredit cfg s a with
    | error e => cases e <;> simp [Except.map]
    | ok r => obtain ⟨s', b⟩ := r; cases b <;> simp [Except.map]
  rw [key]
  unfold trafficCredit
  cases hob : s.onboard a with
  | none => simp
  | some ob =>
    have hiv : (match s.lastUpdateTs.get a, s.lastUpdate.get a with
          | some ts, _ => 1 ≤ (s.now - ts) / (cfg.blocksPerEra * cfg.secsPerBlock)
          | none, some e => e < s.block / cfg.blocksPerEra
          | none, none => ob / cfg.blocksPerEra < s.block / cfg.blocksPerEra) ↔
        creditCapOneEras ≤ (updateInterval cfg s a (blockToEra cfg ob)).1 := by
      unfold updateInterval creditCapOneEras blockToEra currentEra
      cases s.lastUpdateTs.get a with
      | some ts => rfl
      | none =>
        cases s.lastUpdate.get a with
        | some e => simp only [blockToEra]; omega
        | none => simp only [blockToEra]; omega
    simp only [Option.some.injEq, exists_eq_left', hiv]
    by_cases hle : creditCapOneEras ≤ (updateInterval cfg s a (blockToEra cfg ob)).1
    · simp only [hle, if_true, and_true]
      cases hg : s.core.userCredit.get a with
      | none => rw [updateCredit_none hg]; simp
      | some d => rw [updateCredit_some hg]; simp [updateHistory_insert]
    · simp [hle]

/-- **C95** (b): after a report of traffic the time of the last raise is that of the report if the credit was raised and
as before otherwise; a record of the old kind is dropped as soon as it was the one that counted and an era had passed, and
so it counts at most once. Records of other accounts stay. -/
theorem C95_traffic_records (cfg : Cfg) (s : State) (a b : AccId) :
    (step cfg s (.traffic a)).1.lastUpdateTs.get b =
      (if b = a ∧ (step cfg s (.traffic a)).2 = .flag true then some s.now else s.lastUpdateTs.get b) ∧
    (step cfg s (.traffic a)).1.lastUpdate.get b =
      (if b = a ∧ s.onboard a ≠ none ∧ s.lastUpdateTs.get a = none ∧ (∃ e, s.lastUpdate.get a = some e ∧ e < s.block / cfg.blocksPerEra)
        then none else s.lastUpdate.get b) := by
  unfold step
  simp only [body]
  unfold trafficCredit
  obtain hob | ⟨ob, hob⟩ : s.onboard a = none ∨ ∃ ob, s.onboard a = some ob := by cases s.onboard a <;> simp
  · simp [hob, Except.map]
  · simp only [hob, ne_eq, reduceCtorEq, not_false_eq_true, true_and]
    have hdrop : (creditCapOneEras ≤ (updateInterval cfg s a (blockToEra cfg ob)).1 ∧ (updateInterval cfg s a (blockToEra cfg ob)).2 = true) ↔
        (s.lastUpdateTs.get a = none ∧ ∃ e, s.lastUpdate.get a = some e ∧ e < s.block / cfg.blocksPerEra) := by
      unfold updateInterval creditCapOneEras currentEra
      cases s.lastUpdateTs.get a with
      | some ts => simp
      | none =>
        cases s.lastUpdate.get a with
        | some e => simp [blockToEra]; omega
        | none => simp
    by_cases hle : creditCapOneEras ≤ (updateInterval cfg s a (blockToEra cfg ob)).1
    · have hd2 : (s.lastUpdateTs.get a = none ∧ ∃ e, s.lastUpdate.get a = some e ∧ e < s.block / cfg.blocksPerEra) ↔
          (updateInterval cfg s a (blockToEra cfg ob)).2 = true := by rw [← hdrop]; exact and_iff_right hle
      simp only [hle, if_true, hd2]
      obtain hg | ⟨d, hg⟩ : s.core.userCredit.get a = none ∨ ∃ d, s.core.userCredit.get a = some d := by
        cases s.core.userCredit.get a <;> simp
      · simp only [updateCredit_none hg]
        by_cases hb : b = a <;> rcases Bool.eq_false_or_eq_true (updateInterval cfg s a (blockToEra cfg ob)).2 with hu | hu <;>
          simp [Except.map, hb, hu, FMap.get_erase_self, FMap.get_erase_ne]
      · simp only [updateCredit_some hg, updateHistory_insert]
        by_cases hb : b = a <;> rcases Bool.eq_false_or_eq_true (updateInterval cfg s a (blockToEra cfg ob)).2 with hu | hu <;>
          simp [Except.map, hb, hu, FMap.get_erase_self, FMap.get_erase_ne, FMap.get_insert_self, FMap.get_insert_ne]
    · have hd2 : ¬ (s.lastUpdateTs.get a = none ∧ ∃ e, s.lastUpdate.get a = some e ∧ e < s.block / cfg.blocksPerEra) := by
        rw [← hdrop]; exact fun h => hle h.1
      simp only [hle, if_false, hd2]
      simp [Except.map]

/-- **C95** (c): the EVM call reports success exactly for a caller with the privilege and a mapped
user who has a record, or is to be deleted. -/
theorem C95_evm (cfg : Cfg) (bank : Bank)
    (settings : List Setting) (users : List (AccId × Data)) (ops : List Op)
    (ht : ∀ e ∈ (run cfg (genesis bank settings users) ops).2, timely cfg e.1 e.2.1)
    (s : State) (hs : s = (run cfg (genesis bank settings users) ops).1) (caller user n : Nat) (add : Bool) :
    (step cfg s (.evmUpdateCredit caller user n add)).2 = .flag true ↔
      s.isEvmOperator caller = true ∧ ∃ a, s.evmToAccount user = some a ∧
        (s.core.userCredit.get a ≠ none ∨ add = false ∧ n = 2 ^ 64 - 1) := by
  subst hs
  have hi := (run_inv (lv := False) (genesis_inv cfg bank settings users False.elim) ht).1
  generalize (run cfg (genesis bank settings users) ops).1 = s at *
  have key : (step cfg s (.evmUpdateCredit caller user n add)).2 = .flag true ↔
      ∃ c, evmUpdateCredit cfg s caller user n add = .ok (c, true) := by
    unfold step
    simp only [body]
    cases h : evmUpdateCredit cfg s caller user n add with
    | error e => cases e <;> simp [Except.map]
    | ok r => obtain ⟨s', b⟩ := r; cases b <;> simp [Except.map]
  rw [key]
  unfold evmUpdateCredit
  cases ho : s.isEvmOperator caller with
  | false => simp
  | true =>
    simp only [Bool.not_true, Bool.false_eq_true, if_false, true_and]
    cases he : s.evmToAccount user with
    | none => simp
    | some a =>
      simp only [Option.some.injEq, exists_eq_left']
      cases add with
      | true =>
        cases hg : s.core.userCredit.get a with
        | none => simp
        | some d => simp [doAddCredit_ok hi, Except.map]
      | false =>
        have := slash_iff cfg (currentEra cfg s) s.core a (some n)
        simp only [Option.getD_some] at this
        simp only [true_and, Bool.false_eq_true, if_false]
        rw [← this]
        constructor
        · rintro ⟨y, h⟩
          obtain ⟨z, h1, -⟩ := map_ok h
          exact ⟨z, h1⟩
        · rintro ⟨y, h⟩
          rw [h]
          exact ⟨_, rfl⟩

/-- Examples: burning for credit is accepted and refused; the history of account 1 is started by a
delegation, gets entries, and is rebased by root. -/
example : (step exCfg exGenesis (.burnForCredit 2 51)).2.good = false ∧
    (step exCfg (run exCfg exGenesis exHistory).1 (.burnForCredit 1 7)).2.good = true ∧
    (step exCfg exGenesis (.forceModifyHistory 1 1)).2.good = false ∧
    notes (run exCfg exGenesis exHistory).1 (.tip 1 5) .done = some 1 ∧
    rebased (historyOf (run exCfg exGenesis exHistory).1.core 1) 2
      = (historyOf (run exCfg exGenesis exHistory).1.core 1).drop 1 ∧
    (historyOf (step exCfg (run exCfg exGenesis exHistory).1 (.forceModifyHistory 1 2)).1.core 1).map Prod.fst
      = [2, 3] := by decide +kernel

/-- Example: account 1 has an old record of era 3; in era 3 traffic does not raise its credit and the record stays, in era 4
it does, and the record is gone. -/
example : let s : State := { (step exCfg exGenesis (exTime 35 100 0)).1 with lastUpdate := FMap.empty.insert 1 3 }
    let r := step exCfg s (.traffic 1)
    let t := (step exCfg r.1 (exTime 5 125 0)).1
    let q := step exCfg t (.traffic 1)
    r.2 = .flag false ∧ r.1.lastUpdate.get 1 = some 3 ∧ q.2 = .flag true ∧ q.1.lastUpdate.get 1 = none ∧
    q.1.lastUpdateTs.get 1 = some t.now := by decide +kernel

end Verif.Credit
