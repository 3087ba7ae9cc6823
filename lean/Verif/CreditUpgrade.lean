import Verif.CreditParams
import Verif.CreditProperties

/-
Property C107: what the runtime upgrade and the half-yearly reduction do to the settings of the campaigns.
-/

namespace Verif.Credit

open Verif

/-! ### Specification -/

/-- Stake of a level in DPR. -/
def levelStake : Level → Nat
  | .zero => 0 | .one => 5000 | .two => 10000 | .three => 20000 | .four => 30000
  | .five => 50000 | .six => 60000 | .seven => 80000 | .eight => 100000

/-- Yearly rate of a level in percent. -/
def levelRate : Level → Nat
  | .zero => 0 | .one => 5 | .two => 8 | .three => 9 | .four => 10
  | .five => 12 | .six => 13 | .seven => 14 | .eight => 15

/-- Referees of a level. -/
def levelReferees : Level → Nat
  | .zero => 0 | .one => 1 | .two => 2 | .three => 3 | .four => 7
  | .five => 12 | .six => 18 | .seven => 25 | .eight => 34

/-- The settings of campaign 8. -/
def normalSetting (l : Level) : Setting :=
  ⟨8, l, levelStake l * 10 ^ 18, levelRate l, 0, 0, 0, levelReferees l, 0⟩

/-- The settings of campaign 7, the genesis users: `extra` percent more, except for level zero. -/
def genesisSetting (extra : Nat) (l : Level) : Setting :=
  ⟨7, l, levelStake l * 10 ^ 18, if l = .zero then 0 else levelRate l + extra, 0, 0, 0, levelReferees l, 0⟩

/-- All settings that differ are of campaigns in `cs`. -/
def onlyCampaigns (cs : List Nat) (s t : State) : Prop :=
  ∀ c l, c ∉ cs → t.settings.get (c, l) = s.settings.get (c, l) ∧ t.dailyReward.get (c, l) = s.dailyReward.get (c, l)

/-- The state apart from settings, daily rewards and the version of the storage. -/
def apart (s : State) : State := { s with settings := ∅, dailyReward := ∅, atV4 := false }

/-! ### Proof -/

theorem get_foldl_other (l : List Setting) (s : State) (k : Nat × Level) (h : k ∉ l.map (fun c => (c.campaign, c.level))) :
    (l.foldl updateSetting s).settings.get k = s.settings.get k ∧
    (l.foldl updateSetting s).dailyReward.get k = s.dailyReward.get k := by
  induction l generalizing s with
  | nil => exact ⟨rfl, rfl⟩
  | cons x xs ih =>
    simp only [List.map_cons, List.mem_cons, not_or] at h
    obtain ⟨h1, h2⟩ := ih (updateSetting s x) h.2
    simp only [List.foldl_cons]
    rw [h1, h2]
    simp only [updateSetting, FMap.get_insert_ne _ _ h.1, and_self]

theorem frame_foldl (l : List Setting) (s : State) : apart (l.foldl updateSetting s) = apart s := by
  induction l generalizing s with
  | nil => rfl
  | cons x xs ih => exact ih (updateSetting s x)

/-- All levels. -/
def levels : List Level := [.zero, .one, .two, .three, .four, .five, .six, .seven, .eight]

theorem mem_levels (l : Level) : l ∈ levels := by cases l <;> simp [levels]

theorem campaign8_table : campaign8Settings = levels.map normalSetting := by decide +kernel

theorem campaign7_table (n : Nat) (hn : n ≤ 10) : campaign7Settings n = levels.map (genesisSetting n) := by
  have key : ∀ n ∈ [0, 1, 2, 3, 4, 5, 6, 7, 8, 9, 10], campaign7Settings n = levels.map (genesisSetting n) := by decide +kernel
  exact key n (by simp; omega)

theorem subGenesis_table (k : Nat) (hk : k ≤ 5) : subGenesisApy k = levels.map (genesisSetting (10 - k)) := by
  have key : ∀ k ∈ [0, 1, 2, 3, 4, 5], subGenesisApy k = levels.map (genesisSetting (10 - k)) := by decide +kernel
  exact key k (by simp; omega)

theorem get_of_table {f : Level → Setting} {c : Nat} (hc : ∀ l, (f l).campaign = c) (hl : ∀ l, (f l).level = l) (s : State) (l : Level) :
    ((levels.map f).foldl updateSetting s).settings.get (c, l) = some (f l) ∧
    ∀ c', c' ≠ c → ((levels.map f).foldl updateSetting s).settings.get (c', l) = s.settings.get (c', l) ∧
      ((levels.map f).foldl updateSetting s).dailyReward.get (c', l) = s.dailyReward.get (c', l) := by
  have e : (levels.map f).map (fun x => (x.campaign, x.level)) = levels.map (fun l => (c, l)) := by
    rw [List.map_map]
    refine List.map_congr_left fun x _ => ?_
    simp only [Function.comp, hc, hl]
  constructor
  · have hn : ((levels.map f).map (fun x => (x.campaign, x.level))).Nodup := by
      rw [e]
      simp [levels]
    have := (get_foldl_updateSetting _ s (f l) (List.mem_map_of_mem (mem_levels l)) hn).1
    rwa [hc, hl] at this
  · intro c' hne
    refine get_foldl_other _ s (c', l) ?_
    rw [e]
    intro h
    obtain ⟨x, _, hx⟩ := List.mem_map.1 h
    exact hne (congrArg Prod.fst hx).symm

/-! ### C107 -/

/-- C107: the runtime upgrade of a chain with the old storage version gives campaign 8 the new settings and campaign 7
the same with the additional percents that are left after the half-years since the reference era, counted in eight bits; it changes no other
campaign and nothing else but the version. -/
theorem C107_upgrade (cfg : Cfg) (s : State) (hv : s.atV4 = true) :
    let t := (step cfg s .runtimeUpgrade).1
    (∀ l, t.settings.get (8, l) = some (normalSetting l) ∧
      t.settings.get (7, l) = some (genesisSetting (10 - (currentEra cfg s - s.genesisChangeEra) / 180 % 256) l)) ∧
    onlyCampaigns [7, 8] s t ∧
    t.atV4 = false ∧ apart t = apart s := by
  intro t
  have hp := frame_foldl campaign8Settings s
  have hb : (campaign8Settings.foldl updateSetting s).block = s.block := (congrArg State.block hp :)
  have hge : (campaign8Settings.foldl updateSetting s).genesisChangeEra = s.genesisChangeEra :=
    (congrArg State.genesisChangeEra hp :)
  have he : currentEra cfg (campaign8Settings.foldl updateSetting s) - (campaign8Settings.foldl updateSetting s).genesisChangeEra =
      currentEra cfg s - s.genesisChangeEra := by unfold currentEra; rw [hb, hge]
  have ht : t = { (campaign7Settings (10 - (currentEra cfg s - s.genesisChangeEra) / 180 % 256)).foldl updateSetting (campaign8Settings.foldl updateSetting s) with atV4 := false } := by
    show onRuntimeUpgrade cfg s = _
    unfold onRuntimeUpgrade
    rw [if_pos hv]
    simp only [he]
  rw [campaign7_table _ (Nat.sub_le _ _), campaign8_table] at ht
  generalize 10 - (currentEra cfg s - s.genesisChangeEra) / 180 % 256 = n at ht ⊢
  have h8 := get_of_table (f := normalSetting) (c := 8) (fun _ => rfl) (fun _ => rfl) s
  have h7 := get_of_table (f := genesisSetting n) (c := 7) (fun _ => rfl) (fun _ => rfl) ((levels.map normalSetting).foldl updateSetting s)
  refine ⟨fun l => ⟨?_, ?_⟩, fun c l hc => ?_, by rw [ht], ?_⟩
  · rw [ht]; exact ((h7 l).2 8 (by decide)).1.trans (h8 l).1
  · rw [ht]; exact (h7 l).1
  · simp only [List.mem_cons, List.not_mem_nil, or_false, not_or] at hc
    rw [ht]
    exact ⟨((h7 l).2 c hc.1).1.trans ((h8 l).2 c hc.2).1, ((h7 l).2 c hc.1).2.trans ((h8 l).2 c hc.2).2⟩
  · rw [ht]
    show apart ((levels.map (genesisSetting n)).foldl updateSetting ((levels.map normalSetting).foldl updateSetting s)) = _
    rw [frame_foldl, frame_foldl]

/-- C107, half-years: at the first block of the era that lies k half-years (1 to 5) after the reference era, the
settings of campaign 7 become those with 10 - k additional percents, whatever they were before; no other campaign
changes. -/
theorem C107_half_year (cfg : Cfg) (s : State) (k : Nat) (hk : 1 ≤ k ∧ k ≤ 5) (hg : s.genesisChangeEra ≠ 0)
    (hera : currentEra cfg s = s.genesisChangeEra + 180 * k) (hblock : s.block % cfg.blocksPerEra = 0) :
    let t := (step cfg s .initialize).1
    (∀ l, t.settings.get (7, l) = some (genesisSetting (10 - k) l)) ∧ onlyCampaigns [7] s t ∧
    t.atV4 = s.atV4 ∧ apart t = apart s := by
  intro t
  have h1 : t = (levels.map (genesisSetting (10 - k))).foldl updateSetting s := by
    show onInitialize cfg s = _
    unfold onInitialize
    simp only [hblock, if_true, hg, if_false, hera, Nat.add_sub_cancel_left,
      Nat.mul_mod_right, Nat.mul_div_cancel_left k (show 0 < 180 by decide)]
    rw [if_pos (by omega), subGenesis_table k hk.2]
  have h7 := get_of_table (f := genesisSetting (10 - k)) (c := 7) (fun _ => rfl) (fun _ => rfl) s
  refine ⟨fun l => by rw [h1]; exact (h7 l).1, fun c l hc => ?_, ?_, ?_⟩
  · rw [h1]; exact (h7 l).2 c (by simpa using hc)
  · rw [h1]
    have := foldl_updateSetting_params (levels.map (genesisSetting (10 - k))) s
    simp only [params, Prod.mk.injEq] at this
    exact this.2.2.2.2.2.2.1
  · rw [h1]; exact frame_foldl _ s

theorem v4_step (cfg : Cfg) (s : State) (op : Op) (h : s.atV4 = false) : (step cfg s op).1.atV4 = false := by
  rw [← h]
  by_cases hpa : adminCall op = none ∧ deviceCall op = none ∧ rootCall op = false
  · have := C82_only_privileged cfg s op hpa.1 hpa.2.1 hpa.2.2
    simp only [params, Prod.mk.injEq] at this
    exact this.2.2.2.2.2.2.1
  rcases step_cases (cfg := cfg) s op with ⟨s', o, hb, h2⟩ | hb
  rotate_left
  · rw [hb]
  rw [h2]
  show s'.atV4 = s.atV4
  clear h2
  cases op <;> simp only [adminCall, deviceCall, rootCall, reduceCtorEq, and_self, not_true, and_true,
    Bool.true_eq_false, and_false, not_false_iff] at hpa <;> simp only [body] at hb
  case runtimeUpgrade =>
    cases hb
    unfold onRuntimeUpgrade
    rw [h]
    exact h
  case updateCreditSetting => cases hb; rfl
  case setBurnPrice => cases hb; rfl
  case forceModifyHistory => obtain ⟨_, h1, h2⟩ := map_ok hb; cases h2; rfl
  case addOrUpdateCreditData =>
    split at hb
    · obtain ⟨_, h1, h2⟩ := map_ok hb
      cases h2; rfl
    · cases hb
  case unstakingSlashCredit w b =>
    obtain ⟨_, h1, h2⟩ := map_ok hb
    cases h2
    have h3 := (admin_ok h1).2
    obtain ⟨st, d, hst, hg, rfl⟩ := unstakingSlash_ok h3
    rfl
  case setSwitchCampaign =>
    obtain ⟨_, h1, h2⟩ := map_ok hb
    cases h2
    have h3 := (admin_ok h1).2
    split at h3
    · cases h3; rfl
    · cases h3
  case externalSetCreditData w b d =>
    obtain ⟨_, h1, h2⟩ := map_ok hb
    cases h2
    have h3 := (admin_ok h1).2
    split at h3
    · obtain ⟨_, h4, h2⟩ := map_ok h3
      cases h2
      rfl
    · cases h3
  case setMaintain w b =>
    obtain ⟨_, h1, h2⟩ := map_ok hb
    cases h2
    unfold deviceAdmin at h1
    split at h1
    · cases h1
      split <;> rfl
    · cases h1
  case unsetMaintain w b =>
    obtain ⟨_, h1, h2⟩ := map_ok hb
    cases h2
    unfold deviceAdmin at h1
    split at h1
    · cases h1; rfl
    · cases h1
  all_goals
    obtain ⟨_, h1, h2⟩ := map_ok hb
    cases h2
    have h3 := (admin_ok h1).2
    cases h3; rfl

/-- C107, once: after a runtime upgrade, whatever happens then, another one changes nothing. -/
theorem C107_once (cfg : Cfg) (s : State) (ops : List Op) :
    let t := (run cfg (step cfg s .runtimeUpgrade).1 ops).1
    (step cfg t .runtimeUpgrade).1 = t := by
  intro t
  have h0 : (step cfg s .runtimeUpgrade).1.atV4 = false := by
    show (onRuntimeUpgrade cfg s).atV4 = false
    unfold onRuntimeUpgrade
    split
    · rfl
    · rename_i h; simpa using h
  have key : ∀ (ops : List Op) (s : State), s.atV4 = false → (run cfg s ops).1.atV4 = false := by
    intro ops
    induction ops with
    | nil => intro s h; exact h
    | cons op ops ih => intro s h; exact ih _ (v4_step cfg s op h)
  have ht : t.atV4 = false := key ops _ h0
  show onRuntimeUpgrade cfg t = t
  unfold onRuntimeUpgrade
  rw [ht]
  rfl

/-- Reference era 3, half-years of 180 eras of 10 blocks. After two half-years the rate of level one is 5 + 8 percent,
also if an administrator had changed it; with the old storage version the upgrade gives the same. -/
example :
    let s := { exGenesis with genesisChangeEra := 3, block := 3630, atV4 := true }
    exCfg.blocksPerEra = 10 ∧
    ((step exCfg s .initialize).1.settings.get (7, .one)).map Setting.baseApy = some 13 ∧
    ((step exCfg s .runtimeUpgrade).1.settings.get (7, .one)).map Setting.baseApy = some 13 ∧
    (step exCfg s .runtimeUpgrade).1.atV4 = false ∧
    ((step exCfg s .runtimeUpgrade).1.settings.get (8, .three)).map Setting.stakingBalance = some (20000 * 10 ^ 18) := by
  decide +kernel

/-- C107, finding: the two rules for the genesis users disagree after the fifth half-year. The half-yearly reduction
stops at five percent; the upgrade in the seventh half-year goes down to three. -/
theorem C107_rules_disagree :
    let s := { exGenesis with genesisChangeEra := 3, block := 30 + 1800 * 7, atV4 := true }
    let t := (step exCfg { exGenesis with genesisChangeEra := 3, block := 30 + 1800 * 5, atV4 := true } .initialize).1
    (step exCfg { t with block := 30 + 1800 * 7 } .initialize).1.settings.get (7, .one) = some (genesisSetting 5 .one) ∧
    (step exCfg s .runtimeUpgrade).1.settings.get (7, .one) = some (genesisSetting 3 .one) := by
  decide +kernel

end Verif.Credit
