import Verif.OperationProperties

/-
Property C84: the privileged calls of the operation pallet.
-/

namespace Verif.Operation

open Verif.UserPrivileges (Privilege)

/-! ### Specification -/

/-- The caller and the privilege a call needs. -/
def needs : Op → Option (AccId × Privilege)
  | .forceReserve x _ _ => some (x, .lockerMember)
  | .unstakingRelease x _ _ _ _ | .removeInfos x _ => some (x, .releaseSetter)
  | .setFund x _ | .bridgeOut x _ _ _ | .bridgeIn x _ _ _ => some (x, .bridgeAdmin)
  | _ => none

/-- The call needs root and was made by somebody else. -/
def notRoot : Op → Bool
  | .forceRemoveLock r _ _ | .setLimits r _ _ | .unlockAssets r _ _ _ _ => !r
  | _ => false

/-- Everything ever released. -/
def releasedEver : List (State × Op × Out) → Balance
  | [] => 0
  | (_, .finalize, .released l) :: tr => amountOf l + releasedEver tr
  | _ :: tr => releasedEver tr

/-! ### Theorems -/

/-- **C84** (a): a privileged call fails without effect for everyone else. -/
theorem C84_guards (cfg : Cfg) (s : State) (op : Op) :
    (∀ x p, needs op = some (x, p) → s.priv x p = false → ∃ e, step cfg s op = (s, .failed e)) ∧
    (notRoot op = true → step cfg s op = (s, .failed .badOrigin)) := by
  refine ⟨?_, ?_⟩
  · intro x p hn hp
    cases op <;> simp only [needs, Option.some.injEq, Prod.mk.injEq, reduceCtorEq] at hn <;>
      obtain ⟨rfl, rfl⟩ := hn
    case forceReserve => exact ⟨.unauthorizedAccounts, by simp [step, body, forceReserve, hp, Except.map]⟩
    case unstakingRelease => exact ⟨.notMatchOwner, by simp [step, body, unstakingRelease, hp, Except.map]⟩
    case removeInfos => exact ⟨.notMatchOwner, by simp [step, body, removeInfos, hp, Except.map]⟩
    case setFund => exact ⟨.unauthorizedAccounts, by simp [step, body, setFund, hp, Except.map]⟩
    case bridgeOut => exact ⟨.unauthorizedAccounts, by simp [step, body, bridgeOut, hp, Except.map]⟩
    case bridgeIn => exact ⟨.unauthorizedAccounts, by simp [step, body, bridgeIn, hp, Except.map]⟩
  · intro hn
    cases op <;> simp only [notRoot, Bool.not_eq_true', reduceCtorEq] at hn <;> subst hn
    · simp [step, body, forceRemoveLock, Except.map]
    · simp [step, body, setLimits, Except.map]
    · simp [step, body, unlockAssets, Except.map]

/-- **C84** (b): a locker reserves exactly the amount in the account named; it works whenever the
account keeps its locked balance and its existential deposit. -/
theorem C84_reserve (cfg : Cfg) (s : State) (x who : AccId) (v : Balance)
    (hp : s.priv x .lockerMember = true) :
    let r := step cfg s (.forceReserve x who v)
    (r.2 = .done → r.1.bank.reserved who = s.bank.reserved who + v ∧
      r.1.bank.free who + v = s.bank.free who ∧
      (∀ y, y ≠ who → r.1.bank.acct y = s.bank.acct y) ∧ r.1.infos = s.infos ∧ r.1.fund = s.fund) ∧
    (v + max s.bank.ed (s.bank.frozen who) ≤ s.bank.free who → r.2 = .done) := by
  intro r
  have hr : r = step cfg s (.forceReserve x who v) := rfl
  simp only [step, body, forceReserve, hp, Bool.not_true, Bool.false_eq_true, if_false] at hr
  cases hres : s.bank.reserve who v with
  | error e =>
    rw [hres] at hr
    simp only [liftBank, Except.map] at hr
    refine ⟨fun h => (by rw [hr] at h; cases h), fun h => ?_⟩
    exfalso
    unfold Bank.reserve at hres
    split at hres
    · cases hres
    rw [if_neg (by omega), if_neg (by omega), if_neg (by omega)] at hres
    cases hres
  | ok b =>
    rw [hres] at hr
    simp only [liftBank, Except.map] at hr
    obtain ⟨h1, h2, h3⟩ := Bank.reserve_exact hres
    rw [hr]
    exact ⟨fun _ => ⟨h1, h2, h3, rfl, rfl⟩, fun _ => rfl⟩

/-- **C84** (c): root's release of locked assets moves exactly the amount from the source to the
destination, provided the source keeps its existential deposit. -/
theorem C84_unlock (cfg : Cfg) (s : State) (src dst : AccId) (v frozen : Balance) (hne : src ≠ dst) :
    let r := step cfg s (.unlockAssets true src dst v frozen)
    (r.2 = .done → v ≤ s.bank.free src ∧ r.1.bank.free dst = s.bank.free dst + v ∧
      r.1.bank.reserved dst = s.bank.reserved dst ∧
      (s.bank.ed ≤ s.bank.free src - v → r.1.bank.free src + v = s.bank.free src) ∧
      (∀ y, y ≠ src → y ≠ dst → r.1.bank.acct y = s.bank.acct y)) ∧
    (v + max s.bank.ed frozen ≤ s.bank.free src → s.bank.ed ≤ s.bank.free dst + v → r.2 = .done) := by
  intro r
  have hr : r = step cfg s (.unlockAssets true src dst v frozen) := rfl
  simp only [step, body, unlockAssets, Bool.not_true, Bool.false_eq_true, if_false] at hr
  generalize hb : ({ s.bank with frozen := fun x => if x = src then frozen else s.bank.frozen x } : Bank) = b at hr
  have hfree : ∀ y, b.free y = s.bank.free y := by intro y; rw [← hb]; rfl
  have hres : ∀ y, b.reserved y = s.bank.reserved y := by intro y; rw [← hb]; rfl
  have hacct : ∀ y, b.acct y = s.bank.acct y := by intro y; rw [← hb]; rfl
  have hed : b.ed = s.bank.ed := by rw [← hb]
  have hfr : b.frozen src = frozen := by rw [← hb]; simp
  cases ht : b.transfer src dst v false with
  | error e =>
    rw [ht] at hr
    simp only [liftBank, Except.map] at hr
    refine ⟨fun h => (by rw [hr] at h; cases h), fun h1 h2 => ?_⟩
    exfalso
    unfold Bank.transfer at ht
    split at ht
    · cases ht
    rw [hfree, hfree, hres, hed, hfr] at ht
    rw [if_neg (by omega), if_neg (by omega), if_neg (by simp), if_neg (by omega), if_neg (by omega)] at ht
    cases ht
  | ok b' =>
    rw [ht] at hr
    simp only [liftBank, Except.map] at hr
    obtain ⟨h1, h2, h3, h4, h5, h6⟩ := Bank.transfer_move ht hne
    rw [hr]
    simp only [hfree, hres, hacct, hed] at h1 h2 h3 h4 h5 h6
    exact ⟨fun _ => ⟨h1, h2, h3, h5, h6⟩, fun _ _ => rfl⟩

/-- **C84** (d): a release schedule is accepted exactly if the setter has the privilege, number of
days and total are positive, the daily amount is within the limit and the account's staking credit
can be taken back; it then replaces the schedule of this account and nothing else. -/
theorem C84_schedule (cfg : Cfg) (s : State) (x a : AccId) (days moment : Nat) (total : Balance) :
    let r := step cfg s (.unstakingRelease x a days moment total)
    (r.2 = .done ↔ s.priv x .releaseSetter = true ∧ 0 < days ∧ 0 < total ∧ total / days ≤ s.singleMax ∧
      s.slashOk a = true) ∧
    (r.2 = .done → r.1.bank = s.bank ∧ ∀ b, r.1.infos.get b =
      if b = a then some ⟨days, total, startDay moment, startDay moment, total / days⟩ else s.infos.get b) := by
  intro r
  have hr : r = step cfg s (.unstakingRelease x a days moment total) := rfl
  simp only [step, body] at hr
  cases hu : unstakingRelease s x a days moment total with
  | error e =>
    rw [hu] at hr
    simp only [Except.map] at hr
    refine ⟨⟨fun h => (by rw [hr] at h; cases h), ?_⟩, fun h => (by rw [hr] at h; cases h)⟩
    rintro ⟨h1, h2, h3, h4, h5⟩
    exfalso
    unfold unstakingRelease at hu
    simp only [h1, h5, Bool.not_true, Bool.false_eq_true, if_false] at hu
    rw [if_neg (by omega), if_neg (by omega), if_neg (by omega)] at hu
    cases hu
  | ok s' =>
    rw [hu] at hr
    simp only [Except.map] at hr
    obtain ⟨h1, h2, h3, h4, h5, h6⟩ := unstakingRelease_ok hu
    rw [hr]
    refine ⟨⟨fun _ => ⟨h1, h2, h3, h4, h5⟩, fun _ => rfl⟩, fun _ => ?_⟩
    rw [h6]
    exact ⟨rfl, fun b => FMap.get_insert _ _ _ _⟩

/-- **C84** (e): what root sets as limits is what the limit query answers with: an amount is within
the limits if it is at most the single limit and fits under the daily limit with what was released
on the current day. -/
theorem C84_limits (cfg : Cfg) (s : State) (single daily v : Balance) :
    let r := step cfg s (.setLimits true single daily)
    r.2 = .done ∧ r.1.infos = s.infos ∧ r.1.bank = s.bank ∧
    (isSingleMaxLimit r.1 v = true ↔
      v ≤ single ∧ min ((s.daily.get s.savedDay).getD 0 + v) (2 ^ 128 - 1) ≤ daily) := by
  simp only [step, body, setLimits, Bool.not_true, Bool.false_eq_true, if_false, Except.map]
  refine ⟨trivial, trivial, trivial, ?_⟩
  simp only [isSingleMaxLimit, satAdd128, Bool.and_eq_true, decide_eq_true_eq]
  exact and_congr_right fun _ => decide_eq_true_iff

/-- **C84** (f): the recorded total is the sum of everything ever released. -/
theorem C84_total (cfg : Cfg) (s : State) (ops : List Op) :
    (run cfg s ops).1.totalRelease = s.totalRelease + releasedEver (run cfg s ops).2 := by
  induction ops generalizing s with
  | nil => rfl
  | cons op ops ih =>
    show (run cfg (step cfg s op).1 ops).1.totalRelease = _
    rw [ih]
    have key : (step cfg s op).1.totalRelease =
        s.totalRelease + releasedEver [(s, op, (step cfg s op).2)] := by
      by_cases hop : op = .finalize
      · subst hop
        show (finalize cfg s).1.totalRelease = s.totalRelease + (amountOf (finalize cfg s).2 + 0)
        by_cases hd : s.savedDay < s.today
        · unfold finalize
          rw [if_pos hd]
          rfl
        · obtain ⟨l, hk⟩ := finalize_released cfg s hd
          rw [hk.total, ← hk.amounts, List.map_map]
          rfl
      · have h0 : releasedEver [(s, op, (step cfg s op).2)] = 0 := by
          cases op <;> first | rfl | exact absurd rfl hop
        rw [h0, Nat.add_zero]
        rcases step_cases cfg s op with ⟨r, hb, hs⟩ | ⟨e, hb, hs⟩
        rotate_left
        · rw [hs]
        rw [hs]
        cases op <;> simp only [body] at hb
        case finalize => exact absurd rfl hop
        case applyBridge => cases hb; rfl
        case external => cases hb; rfl
        all_goals
          obtain ⟨s', hr, hs'⟩ := map_ok hb
          rw [← hs']
          show s'.totalRelease = s.totalRelease
        case unstakingRelease => rw [(unstakingRelease_ok hr).2.2.2.2.2]
        case removeInfos => rw [removeInfos_ok hr]
        case forceRemoveLock => unfold forceRemoveLock at hr; split at hr <;> cases hr; rfl
        case forceReserve =>
          unfold forceReserve at hr
          split at hr
          · cases hr
          · obtain ⟨b, _, rfl⟩ := map_ok hr; rfl
        case setLimits => unfold setLimits at hr; split at hr <;> cases hr; rfl
        case burnForEzc =>
          unfold burnForEzc at hr
          split at hr
          · cases hr
          · obtain ⟨b, _, rfl⟩ := map_ok hr; rfl
        case setFund => unfold setFund at hr; split at hr <;> cases hr; rfl
        case bridgeOut =>
          unfold bridgeOut at hr
          split at hr
          · cases hr
          split at hr
          · cases hr
          · obtain ⟨b, _, rfl⟩ := map_ok hr; rfl
        case bridgeIn =>
          unfold bridgeIn at hr
          split at hr
          · cases hr
          split at hr
          · cases hr
          · obtain ⟨b, _, rfl⟩ := map_ok hr; rfl
        case unlockAssets =>
          unfold unlockAssets at hr
          split at hr
          · cases hr
          · obtain ⟨b, _, rfl⟩ := map_ok hr; rfl
    have split1 : ∀ e tr, releasedEver (e :: tr) = releasedEver [e] + releasedEver tr := by
      intro e tr
      obtain ⟨s, op, out⟩ := e
      cases op <;> cases out <;> simp [releasedEver]
    show _ = s.totalRelease + releasedEver ((s, op, (step cfg s op).2) :: (run cfg (step cfg s op).1 ops).2)
    rw [split1, key]
    omega

/-- A locker reserves 100; a stranger cannot; root releases 300 of account 1 to account 2; two
instalments of 30 make a total of 60. -/
example :
    let s := (run exCfg (genesis exBank 1000 100) [.external 0 exBank (fun a p => a == 7 && p == .lockerMember) (fun _ => true)]).1
    let ops := [nextDay exBank, .finalize, .unstakingRelease 7 1 3 86400000 90, nextDay exBank, .finalize,
      .finalize, .finalize, nextDay exBank, .finalize, .finalize]
    (step exCfg s (.forceReserve 7 1 100)).1.bank.reserved 1 = 100 ∧
    (step exCfg s (.forceReserve 8 1 100)).2 = .failed .unauthorizedAccounts ∧
    (step exCfg s (.unlockAssets true 1 2 300 0)).1.bank.free 2 = 1300 ∧
    (step exCfg s (.unlockAssets true 1 2 300 0)).2 = .done ∧
    (step exCfg s (.unstakingRelease 7 1 3 0 90)).2 = .failed .notMatchOwner ∧
    isSingleMaxLimit (step exCfg s (.setLimits true 5 10)).1 5 = true ∧
    isSingleMaxLimit (step exCfg s (.setLimits true 5 10)).1 6 = false ∧
    (run exCfg (genesis exBank 1000 100) ops).1.totalRelease = 60 := by
  decide +kernel

end Verif.Operation
