import Verif.OperationLaw

/-
Property C102: when the calls of the operation pallet succeed, and what the administrative ones change.
-/

namespace Verif.Operation

open Verif.UserPrivileges (Privilege)

/-! ### Specification -/

/-- The amount can leave the free balance of a living account, which keeps its locks and the existential
deposit. (Accounts that live on reserved balance alone may go below.) -/
def canSpend (b : Bank) (a : AccId) (v : Balance) : Prop :=
  v = 0 ∨ (v ≤ b.free a ∧ b.frozen a ≤ b.free a - v ∧ (b.ed ≤ b.free a - v ∨ b.free a < b.ed))

/-- The amount can be transferred: the free balance suffices, the locks (with `frozen` the largest of them)
are covered by what is left together with the reserved balance, the receiver has the existential deposit
afterwards, and the sender too, or it may disappear (`mayDie`) and nothing is reserved, locked or pinned. -/
def canMove (b : Bank) (src dst : AccId) (v frozen : Balance) (mayDie : Bool) : Prop :=
  v = 0 ∨ src = dst ∨
    (v ≤ b.free src ∧ frozen ≤ b.free src - v + b.reserved src ∧ b.ed ≤ b.free dst + v ∧
      (b.ed ≤ b.free src - v ∨
        (mayDie = true ∧ b.pinned src = false ∧ b.reserved src = 0 ∧ frozen = 0)))

/-- When each call succeeds. -/
def accepted (cfg : Cfg) (s : State) : Op → Prop
  | .forceRemoveLock root _ _ => root = true
  | .forceReserve x who v => s.priv x .lockerMember = true ∧ canSpend s.bank who v
  | .setLimits root _ _ => root = true
  | .unstakingRelease x a days _ total =>
    s.priv x .releaseSetter = true ∧ 0 < days ∧ 0 < total ∧ total / days ≤ s.singleMax ∧ s.slashOk a = true
  | .removeInfos x _ => s.priv x .releaseSetter = true
  | .burnForEzc x v => cfg.minBurn ≤ v ∧ canSpend s.bank x v
  | .setFund x _ => s.priv x .bridgeAdmin = true
  | .bridgeOut x src v _ => s.priv x .bridgeAdmin = true ∧
    ∃ f, s.fund = some f ∧ canMove s.bank src f v (s.bank.frozen src) false
  | .bridgeIn x dst v _ => s.priv x .bridgeAdmin = true ∧
    ∃ f, s.fund = some f ∧ canMove s.bank f dst v (s.bank.frozen f) false
  | .applyBridge _ _ _ => True
  | .unlockAssets root src dst v frozen => root = true ∧ canMove s.bank src dst v frozen true
  | .finalize => True
  | .external _ _ _ _ => True

/-! ### Balance operations -/

theorem reserve_iff (b : Bank) (a : AccId) (d : Balance) :
    (∃ b', b.reserve a d = .ok b') ↔ canSpend b a d := by
  unfold Bank.reserve canSpend
  by_cases h0 : d = 0
  · simp [h0]
  by_cases h1 : b.free a < d
  · simp [h0, h1, Nat.not_le.2 h1]
  by_cases h2 : b.free a - d < b.frozen a
  · rw [if_neg h0, if_neg h1, if_pos h2]
    exact ⟨fun ⟨_, h⟩ => (by cases h), fun h => (by omega)⟩
  by_cases h3 : b.free a - d < b.ed ∧ b.ed ≤ b.free a
  · rw [if_neg h0, if_neg h1, if_neg h2, if_pos h3]
    exact ⟨fun ⟨_, h⟩ => (by cases h), fun h => (by omega)⟩
  · rw [if_neg h0, if_neg h1, if_neg h2, if_neg h3]
    exact ⟨fun _ => (by omega), fun _ => ⟨_, rfl⟩⟩

theorem withdraw_iff (b : Bank) (a : AccId) (d : Balance) :
    (∃ b', b.withdraw a d true = .ok b') ↔ canSpend b a d := by
  unfold Bank.withdraw canSpend
  by_cases h0 : d = 0
  · simp [h0]
  by_cases h1 : b.free a < d
  · simp [h0, h1, Nat.not_le.2 h1]
  by_cases h3 : b.free a - d < b.ed ∧ b.ed ≤ b.free a
  · rw [if_neg h0, if_neg h1, if_pos ⟨rfl, h3⟩]
    exact ⟨fun ⟨_, h⟩ => (by cases h), fun h => (by omega)⟩
  by_cases h2 : b.free a - d < b.frozen a
  · rw [if_neg h0, if_neg h1, if_neg (fun h => h3 h.2), if_pos h2]
    exact ⟨fun ⟨_, h⟩ => (by cases h), fun h => (by omega)⟩
  · rw [if_neg h0, if_neg h1, if_neg (fun h => h3 h.2), if_neg h2, if_neg (fun h => h3 ⟨h.1, h.2.1⟩)]
    exact ⟨fun _ => (by omega), fun _ => ⟨_, rfl⟩⟩

theorem transfer_iff (b : Bank) (src dst : AccId) (v : Balance) (keep : Bool) :
    (∃ b', b.transfer src dst v keep = .ok b') ↔ canMove b src dst v (b.frozen src) (!keep) := by
  unfold Bank.transfer canMove
  by_cases h0 : v = 0 ∨ src = dst
  · rw [if_pos h0]
    exact ⟨fun _ => h0.elim Or.inl fun h => Or.inr (Or.inl h), fun _ => ⟨_, rfl⟩⟩
  rw [if_neg h0]
  have hv : v ≠ 0 := fun h => h0 (Or.inl h)
  have hs : src ≠ dst := fun h => h0 (Or.inr h)
  have hno : ∀ {e : BankErr} {p : Prop}, (∃ b', (Except.error e : Except BankErr Bank) = .ok b') → p := by
    rintro e p ⟨_, h⟩; cases h
  have hdie : b.canDie src = true ↔ b.pinned src = false ∧ b.reserved src = 0 ∧ b.frozen src = 0 := by
    simp [Bank.canDie, and_assoc]
  by_cases h1 : b.free src < v
  · rw [if_pos h1]
    exact ⟨hno, fun h => by rcases h with h | h | h; exact absurd h hv; exact absurd h hs; omega⟩
  rw [if_neg h1]
  by_cases h2 : b.free src - v < b.frozen src - b.reserved src
  · rw [if_pos h2]
    exact ⟨hno, fun h => by rcases h with h | h | h; exact absurd h hv; exact absurd h hs; omega⟩
  rw [if_neg h2]
  by_cases h3 : keep = true ∧ b.free src - v < b.ed
  · rw [if_pos h3]
    refine ⟨hno, fun h => ?_⟩
    rcases h with h | h | ⟨_, _, _, h | ⟨h, _⟩⟩
    · exact absurd h hv
    · exact absurd h hs
    · omega
    · rw [h3.1] at h; cases h
  rw [if_neg h3]
  by_cases h4 : b.free src - v < b.ed ∧ ¬ b.canDie src = true
  · rw [if_pos h4]
    refine ⟨hno, fun h => ?_⟩
    rcases h with h | h | ⟨_, _, _, h | ⟨_, h⟩⟩
    · exact absurd h hv
    · exact absurd h hs
    · omega
    · exact absurd (hdie.2 h) h4.2
  rw [if_neg h4]
  by_cases h5 : b.free dst + v < b.ed
  · rw [if_pos h5]
    exact ⟨hno, fun h => by rcases h with h | h | h; exact absurd h hv; exact absurd h hs; omega⟩
  rw [if_neg h5]
  refine ⟨fun _ => Or.inr (Or.inr ⟨by omega, by omega, by omega, ?_⟩), fun _ => ⟨_, rfl⟩⟩
  by_cases h6 : b.ed ≤ b.free src - v
  · exact Or.inl h6
  · refine Or.inr ⟨?_, hdie.1 ?_⟩
    · cases keep with
      | false => rfl
      | true => exact absurd ⟨rfl, by omega⟩ h3
    · cases hc : b.canDie src with
      | true => rfl
      | false => exact absurd ⟨by omega, by rw [hc]; decide⟩ h4

/-! ### Acceptance -/

theorem body_failed {cfg : Cfg} {s : State} {op : Op} (h : ∃ e, (step cfg s op).2 = .failed e) :
    ∃ e, body cfg s op = .error e := by
  obtain ⟨e, h⟩ := h
  unfold step at h
  cases hb : body cfg s op with
  | error e => exact ⟨e, rfl⟩
  | ok r =>
    rw [hb] at h
    simp only at h
    exfalso
    cases op <;> simp only [body] at hb
    case applyBridge => cases hb; cases h
    case finalize => cases hb; cases h
    case external => cases hb; cases h
    all_goals
      obtain ⟨_, _, hx⟩ := map_ok hb
      rw [← hx] at h
      cases h

theorem ok_of_bank {s : State} {α : Type} {x : Except BankErr α} {f : α → State} {p : Prop}
    (h : (∃ b, x = .ok b) ↔ p) :
    (∃ s', (liftBank x).map f = (.ok s' : Except Err State)) ↔ p := by
  rw [← h]
  cases x with
  | error e => exact ⟨fun ⟨_, h⟩ => (by cases h), fun ⟨_, h⟩ => (by cases h)⟩
  | ok b => exact ⟨fun _ => ⟨b, rfl⟩, fun _ => ⟨f b, rfl⟩⟩

theorem body_map {x : Except Err State} {p : Prop} (h : (∃ s', x = .ok s') ↔ p) :
    (∃ r : State × Out, x.map (·, Out.done) = .ok r) ↔ p := by
  rw [← h]
  cases x with
  | error e => exact ⟨fun ⟨_, h⟩ => (by cases h), fun ⟨_, h⟩ => (by cases h)⟩
  | ok b => exact ⟨fun _ => ⟨b, rfl⟩, fun _ => ⟨(b, .done), rfl⟩⟩

theorem body_iff (cfg : Cfg) (s : State) (op : Op) :
    (∃ r, body cfg s op = .ok r) ↔ accepted cfg s op := by
  cases op <;> simp only [body, accepted]
  case applyBridge => simp
  case finalize => simp
  case external => simp
  all_goals apply body_map
  case forceRemoveLock root who fr => cases root <;> simp [forceRemoveLock]
  case forceReserve x who v =>
    unfold forceReserve
    cases hp : s.priv x .lockerMember with
    | false => simp
    | true =>
      simp only [Bool.not_true, Bool.false_eq_true, if_false, true_and]
      exact ok_of_bank (s := s) (reserve_iff s.bank who v)
  case setLimits root a b => cases root <;> simp [setLimits]
  case unstakingRelease x a days m total =>
    have := (C84_schedule cfg s x a days m total).1
    rw [← this]
    simp only [step, body]
    cases unstakingRelease s x a days m total with
    | error e => simp [Except.map]
    | ok s' => simp [Except.map]
  case removeInfos x l =>
    unfold removeInfos
    cases s.priv x .releaseSetter <;> simp
  case burnForEzc x v =>
    unfold burnForEzc
    by_cases h : v < cfg.minBurn
    · rw [if_pos h]
      exact ⟨fun ⟨_, h⟩ => (by cases h), fun h' => (by omega)⟩
    · rw [if_neg h, ok_of_bank (s := s) (withdraw_iff s.bank x v)]
      exact ⟨fun h' => ⟨by omega, h'⟩, fun h' => h'.2⟩
  case setFund x f =>
    unfold setFund
    cases s.priv x .bridgeAdmin <;> simp
  case bridgeOut x src v c =>
    unfold bridgeOut
    cases s.priv x .bridgeAdmin with
    | false => simp
    | true =>
      simp only [Bool.not_true, Bool.false_eq_true, if_false, true_and]
      cases s.fund with
      | none => simp
      | some f =>
        simp only [Option.some.injEq, exists_eq_left']
        exact ok_of_bank (s := s) (transfer_iff s.bank src f v true)
  case bridgeIn x dst v c =>
    unfold bridgeIn
    cases s.priv x .bridgeAdmin with
    | false => simp
    | true =>
      simp only [Bool.not_true, Bool.false_eq_true, if_false, true_and]
      cases s.fund with
      | none => simp
      | some f =>
        simp only [Option.some.injEq, exists_eq_left']
        exact ok_of_bank (s := s) (transfer_iff s.bank f dst v true)
  case unlockAssets root src dst v fr =>
    unfold unlockAssets
    cases root with
    | false => simp
    | true =>
      simp only [Bool.not_true, Bool.false_eq_true, if_false, true_and]
      refine (ok_of_bank (s := s) (transfer_iff _ src dst v false)).trans ?_
      simp only [canMove, Bank.free, Bank.reserved, Bank.acct, if_true, Bool.not_false]

/-- C102: every call succeeds exactly under its conditions; a failing call changes nothing. -/
theorem C102_accepted (cfg : Cfg) (s : State) (op : Op) :
    ((∀ e, (step cfg s op).2 ≠ .failed e) ↔ accepted cfg s op) ∧
    (¬ accepted cfg s op → (step cfg s op).1 = s) := by
  rw [← body_iff]
  refine ⟨⟨fun h => ?_, ?_⟩, ?_⟩
  · cases hb : body cfg s op with
    | ok r => exact ⟨r, rfl⟩
    | error e => exact absurd (by unfold step; rw [hb]) (h e)
  · rintro ⟨r, hr⟩ e he
    obtain ⟨e', h'⟩ := body_failed ⟨e, he⟩
    rw [hr] at h'; cases h'
  · intro h
    unfold step
    cases hb : body cfg s op with
    | ok r => exact absurd ⟨r, hb⟩ h
    | error e => rfl

theorem eraseAll_get (l : List AccId) (m : FMap AccId Info) (b : AccId) :
    (l.foldl (fun m a => m.erase a) m).get b = if b ∈ l then none else m.get b := by
  induction l generalizing m with
  | nil => simp
  | cons a l ih =>
    rw [List.foldl_cons, ih, FMap.get_erase]
    by_cases h1 : b ∈ l
    · simp [h1]
    · by_cases h2 : b = a <;> simp [h1, h2]

/-- C102: what the administrative calls change. Removing schedules removes exactly those of the accounts
named, without paying anything; a new fund pool replaces the old one; removing a lock leaves the account
with the locks that remain and moves no balance; the limits are those given. Nothing else changes. -/
theorem C102_effects (cfg : Cfg) (s : State) :
    (∀ x accs, (step cfg s (.removeInfos x accs)).2 = .done →
      (∀ b, (step cfg s (.removeInfos x accs)).1.infos.get b = if b ∈ accs then none else s.infos.get b) ∧
      ∃ m, (step cfg s (.removeInfos x accs)).1 = { s with infos := m }) ∧
    (∀ x f, (step cfg s (.setFund x f)).2 = .done → (step cfg s (.setFund x f)).1 = { s with fund := some f }) ∧
    (∀ root who fr, (step cfg s (.forceRemoveLock root who fr)).2 = .done →
      (step cfg s (.forceRemoveLock root who fr)).1.bank.frozen who = fr ∧
      (∀ b, b ≠ who → (step cfg s (.forceRemoveLock root who fr)).1.bank.frozen b = s.bank.frozen b) ∧
      ∃ g, (step cfg s (.forceRemoveLock root who fr)).1 = { s with bank := { s.bank with frozen := g } }) ∧
    (∀ root x y, (step cfg s (.setLimits root x y)).2 = .done →
      (step cfg s (.setLimits root x y)).1 = { s with singleMax := x, dailyMax := y }) ∧
    (∀ x v c, (step cfg s (.applyBridge x v c)).1 = s) := by
  refine ⟨?_, ?_, ?_, ?_, fun _ _ _ => rfl⟩
  · intro x accs
    simp only [step, body, removeInfos]
    cases s.priv x .releaseSetter with
    | false => exact fun h => (by cases h)
    | true => exact fun _ => ⟨fun b => eraseAll_get accs s.infos b, _, rfl⟩
  · intro x f
    simp only [step, body, setFund]
    cases s.priv x .bridgeAdmin with
    | false => exact fun h => (by cases h)
    | true => exact fun _ => rfl
  · intro root who fr
    simp only [step, body, forceRemoveLock]
    cases root with
    | false => exact fun h => (by cases h)
    | true =>
      refine fun _ => ⟨?_, ?_, _, rfl⟩
      · show (if who = who then fr else _) = fr
        rw [if_pos rfl]
      · intro b hb
        show (if b = who then fr else _) = _
        rw [if_neg hb]
  · intro root x y
    simp only [step, body, setLimits]
    cases root with
    | false => exact fun h => (by cases h)
    | true => exact fun _ => rfl

/-- Account 1 may burn all it has except the existential deposit; bridging needs a fund pool; root may empty
an account completely. -/
example :
    let s := (run exCfg (genesis exBank 100 80) [.external 0 exBank allPriv (fun _ => true)]).1
    s.bank.ed = 1 ∧ s.bank.free 1 = 1000 ∧
    (step exCfg s (.burnForEzc 1 999)).2 = .done ∧
    (step exCfg s (.burnForEzc 1 1000)).2 = .failed (.bank .expendability) ∧
    (step exCfg s (.bridgeOut 7 1 300 "x")).2 = .failed .fundPoolNotSet ∧
    (step exCfg s (.unlockAssets true 1 2 1000 0)).2 = .done ∧
    (step exCfg s (.unlockAssets true 1 2 1001 0)).2 = .failed (.bank .insufficientBalance) ∧
    (step exCfg (step exCfg s (.unstakingRelease 7 1 10 0 100)).1 (.removeInfos 7 [3, 1])).1.infos.get 1 = none := by
  decide +kernel

end Verif.Operation
