import Verif.Penalty
import Verif.PayoutForced
import Verif.SlashingLaw

/-!
# Penalties for delegators: C123 and C124
-/

namespace Verif.Penalty

open Verif Payout

/-! ### Specification -/

/-- The credit record of an account. -/
def credit (c : Chain.State) (a : AccId) : Option Credit.Data := c.stk.credit.core.userCredit.get a

/-- The record after a loss of points. -/
def lowered (d : Credit.Data) (n : Nat) : Credit.Data := { d with credit := d.credit - n, level := .ofScore (d.credit - n) }

/-- The slashes applied when the next era starts: those reported in eras which are then at least as old as slashes are
deferred. -/
def due (cfg : Chain.Cfg) (c : Chain.State) : List Slashing.Unapplied :=
  match c.slash.earliest with
  | none => []
  | some e => (List.range' e ((match c.slash.active with | some k => k + 1 | none => 0) - cfg.slash.defer - e)).flatMap fun k => (c.slash.unapplied.get k).getD []

/-- The delegators hit by slashes, once for each slash. -/
def hit (us : List Slashing.Unapplied) : List AccId := us.flatMap Slashing.Unapplied.others

/-- An account has as much credit as delegators need. -/
def Enough (cfg : Chain.Cfg) (c : Chain.State) (a : AccId) : Prop := ∃ d, credit c a = some d ∧ cfg.stk.credit.minCredit ≤ d.credit

/-- The record after a list of penalties, the greatest number of 64 bits deleting it; penalties of accounts without a
record are not possible. -/
def fate : Option Credit.Data → List Nat → Option (Option Credit.Data)
  | r, [] => some r
  | r, n :: ns =>
    if n = 2 ^ 64 - 1 then fate none ns
    else match r with
      | none => none
      | some d => fate (some (lowered d n)) ns

/-- The penalties a list holds for one account. -/
def scores (a : AccId) (l : List (AccId × Nat)) : List Nat := (l.filter fun x => decide (x.1 = a)).map Prod.snd

/-! ### One penalty -/

theorem undelegateOf_stakers (s : Delegation.State) (a : AccId) : (Delegation.undelegateOf s a).stakers = s.stakers := by
  unfold Delegation.undelegateOf
  split
  · rfl
  · split
    · rfl
    · simp only
      split <;> rfl

theorem slash_ok {cfg : Chain.Cfg} {c t : Chain.State} {a : AccId} {n : Option Nat} (h : slashCredit cfg c a n = some t) :
    t = Payout.call cfg c (.credit (.slashCredit a n)) ∧
    (∀ b, credit t b = if b = a then Credit.punished (credit c b) (n.getD cfg.stk.credit.attenuationStep) else credit c b) ∧
    t.stk.dele = c.stk.dele ∧ t.slash = c.slash ∧ t.w = World.settle c.w := by
  unfold slashCredit at h
  split at h
  · cases h
  rename_i core hc
  cases h
  have hs : Credit.step cfg.stk.credit { c.stk.credit with bank := c.w.bank } (.slashCredit a n) =
      ({ c.stk.credit with bank := c.w.bank, core := core }, .done) := by
    simp only [Credit.step, Credit.body]
    have : Credit.slashCredit cfg.stk.credit (Credit.currentEra cfg.stk.credit { c.stk.credit with bank := c.w.bank }) c.stk.credit.core a n = .ok core := hc
    rw [this]
    rfl
  refine ⟨rfl, fun b => ?_, rfl, rfl, ?_⟩
  · show (Credit.step cfg.stk.credit { c.stk.credit with bank := c.w.bank } (.slashCredit a n)).1.core.userCredit.get b = _
    rw [hs]
    exact Credit.slashCredit_uc hc b
  · show World.settle { c.w with bank := (Credit.step cfg.stk.credit { c.stk.credit with bank := c.w.bank } (.slashCredit a n)).1.bank } = _
    rw [hs]

theorem slash_none {cfg : Chain.Cfg} {c : Chain.State} {a : AccId} {n : Option Nat} (hn : n.getD cfg.stk.credit.attenuationStep ≠ 2 ^ 64 - 1) :
    slashCredit cfg c a n = none ↔ credit c a = none := by
  unfold slashCredit credit Credit.slashCredit
  simp only
  rw [if_neg (show ¬ n.getD cfg.stk.credit.attenuationStep = Credit.u64Max from hn)]
  cases hd : c.stk.credit.core.userCredit.get a with
  | none => simp [Credit.updateHistory, hd]
  | some d =>
    simp only [Credit.updateHistory, FMap.get_insert_self]
    split
    · rename_i e he
      split at he <;> cases he
    · simp

theorem slash_max {cfg : Chain.Cfg} {c : Chain.State} {a : AccId} : slashCredit cfg c a (some (2 ^ 64 - 1)) ≠ none := by
  unfold slashCredit Credit.slashCredit
  simp only [Option.getD_some]
  rw [if_pos (show (2 ^ 64 - 1 : Nat) = Credit.u64Max from rfl)]
  simp

theorem undelegate_spec (cfg : Chain.Cfg) (c : Chain.State) (a : AccId) :
    let t := undelegate cfg c a
    (∀ b, credit t b = credit c b) ∧ t.slash = c.slash ∧ t.w = World.settle c.w ∧ (∀ b, b ≠ a → t.stk.dele.delegators.get b = c.stk.dele.delegators.get b) ∧
    Idle t a ∧ (Idle c a → t.stk.dele.delegators.get a = c.stk.dele.delegators.get a) ∧ t.stk.dele.stakers = c.stk.dele.stakers := by
  intro t
  have hrec : ∀ b, t.stk.dele.delegators.get b = Delegation.recordAfter cfg.dele (deleOf c) b (.forceUndelegate true [a]) := fun b =>
    Delegation.C93_records cfg.dele (deleOf c) (.forceUndelegate true [a]) rfl (by simp [Delegation.allowed]) b
  refine ⟨fun b => rfl, rfl, ?_, fun b hb => ?_, ?_, ?_, ?_⟩
  · show Chain.put c.w (Delegation.undelegateOf (Chain.stkOn c).dele a).led = _
    rw [Chain.led_undelegateOf]
    rfl
  · rw [hrec b]
    simp [Delegation.recordAfter, hb]
    rfl
  · intro d hd
    rw [hrec a] at hd
    simp only [Delegation.recordAfter, List.mem_singleton, if_true] at hd
    cases hx : (deleOf c).delegators.get a with
    | none => rw [hx] at hd; cases hd
    | some x =>
      rw [hx] at hd
      simp only [Option.bind_some, Delegation.ended] at hd
      split at hd
      · rename_i hf; cases hd; exact hf
      split at hd
      · cases hd
      · cases hd; rfl
  · intro hi
    rw [hrec a]
    simp only [Delegation.recordAfter, List.mem_singleton, if_true]
    cases hx : (deleOf c).delegators.get a with
    | none => exact hx.symm
    | some x =>
      simp only [Option.bind_some, Delegation.ended]
      rw [if_pos (hi x hx)]
      exact hx.symm
  · show (Delegation.undelegateOf (Chain.stkOn c).dele a).stakers = _
    rw [undelegateOf_stakers]
    rfl

theorem punish {cfg : Chain.Cfg} (hs : cfg.stk.credit.attenuationStep ≠ 2 ^ 64 - 1) (r : Option Credit.Data) :
    Credit.punished r cfg.stk.credit.attenuationStep = r.map (lowered · cfg.stk.credit.attenuationStep) := by
  unfold Credit.punished
  rw [if_neg hs]
  rfl

/-- A slash of one delegator. -/
theorem creditSlash_ok {cfg : Chain.Cfg} (hs : cfg.stk.credit.attenuationStep ≠ 2 ^ 64 - 1) {c t : Chain.State} {a : AccId}
    (h : creditSlash cfg c a = some t) :
    (∀ b, credit t b = if b = a then (credit c b).map (lowered · cfg.stk.credit.attenuationStep) else credit c b) ∧
    t.slash = c.slash ∧ (World.settle c.w = c.w → t.w = c.w) ∧ (∀ b, b ≠ a → t.stk.dele.delegators.get b = c.stk.dele.delegators.get b) ∧
    (Credit.passThreshold cfg.stk.credit t.stk.credit a = false → Idle t a) ∧
    ((Credit.passThreshold cfg.stk.credit t.stk.credit a = true ∨ Idle c a) → t.stk.dele.delegators.get a = c.stk.dele.delegators.get a) ∧
    t.stk.dele.stakers = c.stk.dele.stakers := by
  unfold creditSlash at h
  obtain ⟨u, hu, rfl⟩ := Option.map_eq_some_iff.1 h
  obtain ⟨-, h1, h2, h3, h4⟩ := slash_ok hu
  simp only [Option.getD_none, punish hs] at h1
  by_cases hp : Credit.passThreshold cfg.stk.credit u.stk.credit a = true
  · rw [if_pos hp]
    refine ⟨h1, h3, fun e => h4.trans e, fun b _ => by rw [h2], fun e => ?_, fun _ => by rw [h2], by rw [h2]⟩
    rw [hp] at e; cases e
  · rw [if_neg hp]
    obtain ⟨k1, k2, k3, k4, k5, k6, k7⟩ := undelegate_spec cfg u a
    have hpa : Credit.passThreshold cfg.stk.credit (undelegate cfg u a).stk.credit a = Credit.passThreshold cfg.stk.credit u.stk.credit a := by
      unfold Credit.passThreshold
      have := k1 a
      unfold credit at this
      rw [this]
    refine ⟨fun b => (k1 b).trans (h1 b), k2.trans h3, fun e => ?_, fun b hb => (k4 b hb).trans (by rw [h2]), fun _ => k5, fun e => ?_, k7.trans (by rw [h2])⟩
    · rw [k3, h4, e, e]
    · rcases e with e | e
      · rw [hpa] at e; exact absurd e hp
      · rw [k6 (by unfold Idle; rw [h2]; exact e), h2]

theorem creditSlash_none {cfg : Chain.Cfg} (hs : cfg.stk.credit.attenuationStep ≠ 2 ^ 64 - 1) {c : Chain.State} {a : AccId} :
    creditSlash cfg c a = none ↔ credit c a = none := by
  unfold creditSlash
  rw [Option.map_eq_none_iff]
  exact slash_none hs

/-- The record after a number of penalties. -/
def after (n k : Nat) (d : Credit.Data) : Credit.Data := if n = 0 then d else lowered d (n * k)

theorem lowered_lowered (d : Credit.Data) (m n : Nat) : lowered (lowered d m) n = lowered d (m + n) := by
  unfold lowered
  simp only [Nat.sub_sub]

theorem after_succ (d : Credit.Data) (n k : Nat) : after n k (lowered d k) = after (n + 1) k d := by
  unfold after
  by_cases h : n = 0
  · subst h; simp
  · rw [if_neg h, if_neg (Nat.succ_ne_zero n), lowered_lowered]
    congr 1
    rw [Nat.add_mul]; omega

theorem pass_after {cfg : Credit.Cfg} {d : Credit.Data} {n k : Nat} (h : Credit.passData cfg d = false) : Credit.passData cfg (after n k d) = false := by
  unfold Credit.passData at h ⊢
  unfold after
  split
  · exact h
  · unfold lowered
    simp only [decide_eq_false_iff_not] at h ⊢
    omega

theorem slashes_none {cfg : Chain.Cfg} (hs : cfg.stk.credit.attenuationStep ≠ 2 ^ 64 - 1) : ∀ (l : List AccId) (c : Chain.State),
    creditSlashes cfg c l = none ↔ ∃ a ∈ l, credit c a = none := by
  intro l
  induction l with
  | nil => intro c; simp [creditSlashes]
  | cons a l ih =>
    intro c
    show (creditSlash cfg c a).bind _ = none ↔ _
    cases h : creditSlash cfg c a with
    | none => simp [(creditSlash_none hs).1 h]
    | some t =>
      have hc : credit c a ≠ none := fun e => by rw [(creditSlash_none hs).2 e] at h; cases h
      obtain ⟨k1, -⟩ := creditSlash_ok hs h
      have k2 : ∀ b, credit t b = none ↔ credit c b = none := by
        intro b
        rw [k1 b]
        split
        · exact Option.map_eq_none_iff
        · exact Iff.rfl
      simp only [Option.bind_some, ih, k2, List.mem_cons]
      constructor
      · rintro ⟨b, hb, h⟩; exact ⟨b, .inr hb, h⟩
      · rintro ⟨b, hb, hn⟩
        rcases hb with rfl | hb
        · exact absurd hn hc
        · exact ⟨b, hb, hn⟩

/-- Slashes of delegators. -/
structure Hit (cfg : Chain.Cfg) (c t : Chain.State) (l : List AccId) : Prop where
  credit : ∀ a, credit t a = (credit c a).map (after (l.count a) cfg.stk.credit.attenuationStep)
  slash : t.slash = c.slash
  money : World.settle c.w = c.w → t.w = c.w
  below : ∀ a ∈ l, Credit.passThreshold cfg.stk.credit t.stk.credit a = false → Idle t a
  kept : ∀ a, (a ∉ l ∨ Credit.passThreshold cfg.stk.credit t.stk.credit a = true ∨ Idle c a) →
    t.stk.dele.delegators.get a = c.stk.dele.delegators.get a
  stakers : t.stk.dele.stakers = c.stk.dele.stakers

theorem slashes_ok {cfg : Chain.Cfg} (hs : cfg.stk.credit.attenuationStep ≠ 2 ^ 64 - 1) : ∀ (l : List AccId) (c t : Chain.State),
    creditSlashes cfg c l = some t → Hit cfg c t l := by
  intro l
  induction l with
  | nil =>
    intro c t h
    cases h
    refine ⟨fun a => ?_, rfl, fun _ => rfl, by simp, fun _ _ => rfl, rfl⟩
    cases credit c a <;> simp [after]
  | cons a l ih =>
    intro c t h
    obtain ⟨u, hu, hl⟩ := Option.bind_eq_some_iff.1 (show (creditSlash cfg c a).bind _ = some t from h)
    obtain ⟨k1, k2, k3, k4, k5, k6, k7⟩ := creditSlash_ok hs hu
    have i := ih u t hl
    have hcred : ∀ b, credit t b = (credit c b).map (after ((a :: l).count b) cfg.stk.credit.attenuationStep) := by
      intro b
      rw [i.credit b, k1 b]
      by_cases e : b = a
      · subst e
        rw [if_pos rfl, List.count_cons_self, Option.map_map]
        congr 1
        funext d
        exact after_succ d _ _
      · rw [if_neg e, List.count_cons_of_ne (fun h => e h.symm)]
    have mono : ∀ b, Credit.passThreshold cfg.stk.credit u.stk.credit b = false → Credit.passThreshold cfg.stk.credit t.stk.credit b = false := by
      intro b
      have := i.credit b
      unfold Penalty.credit at this
      unfold Credit.passThreshold
      rw [this]
      cases u.stk.credit.core.userCredit.get b with
      | none => exact id
      | some d => exact fun h => pass_after h
    refine ⟨hcred, i.slash.trans k2, fun e => ?_, fun b hb hp => ?_, fun b hb => ?_, i.stakers.trans k7⟩
    · rw [i.money (by rw [k3 e]; exact e), k3 e]
    · by_cases hm : b ∈ l
      · exact i.below b hm hp
      · have e : b = a := by simpa [hm] using hb
        subst e
        have hsame : Credit.passThreshold cfg.stk.credit u.stk.credit b = false := by
          have := i.credit b
          rw [List.count_eq_zero_of_not_mem hm] at this
          unfold Penalty.credit at this
          unfold Credit.passThreshold at hp ⊢
          rw [this] at hp
          revert hp
          cases u.stk.credit.core.userCredit.get b <;> exact id
        have := k5 hsame
        unfold Idle
        rw [i.kept b (.inl hm)]
        exact this
    · by_cases e : b = a
      · subst e
        have hor : Credit.passThreshold cfg.stk.credit t.stk.credit b = true ∨ Idle c b := by
          rcases hb with h | h
          · exact absurd (List.mem_cons_self ..) h
          · exact h
        have hku : u.stk.dele.delegators.get b = c.stk.dele.delegators.get b := by
          refine k6 ?_
          rcases hor with h | h
          · left
            cases hx : Credit.passThreshold cfg.stk.credit u.stk.credit b with
            | true => rfl
            | false => rw [mono b hx] at h; cases h
          · exact .inr h
        rw [i.kept b, hku]
        rcases hor with h | h
        · exact .inr (.inl h)
        · exact .inr (.inr (by unfold Idle; rw [hku]; exact h))
      · rw [i.kept b, k4 b e]
        rcases hb with h | h | h
        · exact .inl fun h' => h (List.mem_cons_of_mem _ h')
        · exact .inr (.inl h)
        · exact .inr (.inr (by unfold Idle; rw [k4 b e]; exact h))

/-! ### Records stay -/

theorem settle_stakers (s : Delegation.State) (d : Delegation.Delegator) (era : Nat) : (Delegation.settle s d era).stakers = s.stakers := by
  unfold Delegation.settle
  split <;> rfl

theorem payDelegator_stakers (s : Delegation.State) (d : Delegation.Delegator) (era : Nat) (pool : Balance) (r : AccId → Nat → Nat → Option Balance) :
    (Delegation.payDelegator s d era pool r).1.stakers = s.stakers := by
  unfold Delegation.payDelegator
  simp only
  split
  · rfl
  · rw [settle_stakers]
    split <;> rfl

theorem payReferer_stakers (s : Delegation.State) (d : AccId) (v p : Balance) : (Delegation.payReferer s d v p).1.stakers = s.stakers := by
  unfold Delegation.payReferer
  split
  · rfl
  · split <;> rfl

/-- Calls that delete a credit record: forced unstaking, and penalties of the greatest number of 64 bits. -/
def deletes : Op → Bool
  | .pay (.chain (.dele (.forceUnstaking r _))) => r
  | .pay (.chain (.credit (.evmUpdateCredit _ _ n _))) => decide (n = 2 ^ 64 - 1)
  | .forceUndelegate _ l => l.any fun x => decide (x.2 = 2 ^ 64 - 1)
  | _ => false

theorem credit_some {cfg : Credit.Cfg} (hat : cfg.attenuationStep ≠ 2 ^ 64 - 1) {k : Credit.State} {op : Credit.Op} {a : AccId}
    (hg : ∀ x y n b, op = .evmUpdateCredit x y n b → n ≠ 2 ^ 64 - 1) (hs : ∀ b n, op = .slashCredit b n → n.getD cfg.attenuationStep ≠ 2 ^ 64 - 1)
    (h : k.core.userCredit.get a ≠ none) : (Credit.step cfg k op).1.core.userCredit.get a ≠ none := by
  rw [Credit.C79_record_table cfg hat]
  generalize (Credit.step cfg k op).2 = out
  unfold Credit.expectedRecord
  cases hr : Credit.tableRow cfg k op out with
  | none => exact h
  | some r =>
    obtain ⟨b, f⟩ := r
    show (if a = b then f (k.core.userCredit.get a) else k.core.userCredit.get a) ≠ none
    by_cases hb : a = b
    · rw [if_pos hb]
      obtain ⟨d, hd⟩ := Option.ne_none_iff_exists'.1 h
      rw [hd]
      unfold Credit.tableRow at hr
      split at hr
      case h_2 => cases hr; split <;> simp
      case h_6 => obtain ⟨x, hx, e⟩ := Option.map_eq_some_iff.1 hr; cases e; simp
      case h_7 =>
        obtain ⟨x, hx, e⟩ := Option.map_eq_some_iff.1 hr; cases e
        show Credit.punished (some d) _ ≠ none
        unfold Credit.punished
        rw [if_neg (hg _ _ _ _ rfl)]; simp
      case h_8 =>
        cases hr
        show Credit.punished (some d) _ ≠ none
        unfold Credit.punished
        rw [if_neg (hs _ _ rfl)]; simp
      all_goals first
        | (cases hr; simp; done)
        | (cases hr)
    · rw [if_neg hb]; exact h

/-- A call that deletes no record. -/
def mild (cfg : Chain.Cfg) : Chain.Op → Prop
  | .dele (.forceUnstaking r _) => r = false
  | .credit (.evmUpdateCredit _ _ n _) => n ≠ 2 ^ 64 - 1
  | .credit (.slashCredit _ n) => n.getD cfg.stk.credit.attenuationStep ≠ 2 ^ 64 - 1
  | _ => True

theorem stake_some {cfg : StakingCredit.Cfg} (hat : cfg.credit.attenuationStep ≠ 2 ^ 64 - 1) {x : StakingCredit.State} (op : StakingCredit.Op) {a : AccId}
    (h : x.credit.core.userCredit.get a ≠ none) : (StakingCredit.step cfg x op).1.credit.core.userCredit.get a ≠ none := by
  refine stake_keeps_of cfg (fun u => u.credit.core.userCredit.get a ≠ none) x op ?_ ?_ ?_ ?_ ?_ h
  · intro u t who v hp hu
    unfold StakingCredit.pay at hp
    split at hp
    · cases hp
    · cases hp; exact hu
  · intro u t g n ha hu
    unfold StakingCredit.addCredit at ha
    split at ha
    · cases ha
    rename_i k hk
    cases ha
    have hb : Credit.step cfg.credit u.credit (.addOrUpdateCredit (staker op) g (some n)) = (k, .done) := by
      simp only [Credit.step, Credit.body, hk]
      rfl
    have := credit_some hat (k := u.credit) (op := .addOrUpdateCredit (staker op) g (some n)) (a := a) (by intro _ _ _ _ e; cases e) (by intro _ _ e; cases e) hu
    rw [hb] at this
    exact this
  · intro u who p q hu
    exact hu
  · intro u t order ht hu
    unfold StakingCredit.delegateAny at ht
    split at ht
    · cases ht
    rename_i d hd
    cases ht
    show (if _ then _ else _ : Credit.State).core.userCredit.get a ≠ none
    split
    · exact hu
    · exact credit_some hat (k := u.credit) (op := .initDelegatorHistory (staker op)) (a := a) (by intro _ _ _ _ e; cases e) (by intro _ _ e; cases e) hu
  · intro u b hu
    exact hu

theorem effect_some {cfg : Chain.Cfg} (hf : Fits cfg) {k : Credit.State} {a : AccId} (b t : FMap AccId Delegation.Delegator) (op : Chain.Op)
    (hm : mild cfg op) (h : k.core.userCredit.get a ≠ none) : (effect cfg.stk.credit b t k op).core.userCredit.get a ≠ none := by
  unfold effect
  split
  · split
    · rename_i d _ _ _
      exact credit_some hf.step (k := k) (op := .initDelegatorHistory d) (a := a) (by intro _ _ _ _ e; cases e) (by intro _ _ e; cases e) h
    · exact h
  · cases hm
  · exact h

theorem call_some {cfg : Chain.Cfg} (hf : Fits cfg) {c : Chain.State} {a : AccId} (op : Chain.Op) (hm : mild cfg op)
    (h : credit c a ≠ none) : credit (call cfg c op) a ≠ none := by
  refine effect_some hf _ _ op hm ?_
  show (Chain.step cfg c (fill cfg c op)).stk.credit.core.userCredit.get a ≠ none
  cases op with
  | world op =>
    have e : (Chain.step cfg c (.world op)).stk = c.stk := by simp only [Chain.step]; split <;> rfl
    show (Chain.step cfg c (.world op)).stk.credit.core.userCredit.get a ≠ none
    rw [e]; exact h
  | bond op n =>
    have e : (Chain.step cfg c (.bond op n)).stk = c.stk := by simp only [Chain.step]; split <;> rfl
    show (Chain.step cfg c (.bond op n)).stk.credit.core.userCredit.get a ≠ none
    rw [e]; exact h
  | slash op =>
    have e : (Chain.step cfg c (.slash op)).stk = c.stk := by simp only [Chain.step]; split <;> rfl
    show (Chain.step cfg c (.slash op)).stk.credit.core.userCredit.get a ≠ none
    rw [e]; exact h
  | adsc op => exact h
  | credit op =>
    refine credit_some hf.step (k := { c.stk.credit with bank := c.w.bank }) (op := op) ?_ ?_ h
    · rintro x y n b rfl; exact hm
    · rintro b n rfl; exact hm
  | stake op => exact stake_some (cfg := cfg.stake) hf.step (x := Chain.stkOn c) op h
  | dele op =>
    have : ∀ o, (Chain.step cfg c (.dele o)).stk.credit = c.stk.credit := by
      intro o
      simp only [Chain.step]
      split <;> rfl
    have hfill : ∃ o, fill cfg c (.dele op) = .dele o := by cases op <;> exact ⟨_, rfl⟩
    obtain ⟨o, eo⟩ := hfill
    rw [eo, this]
    exact h

theorem payLoop_some {cfg : StakingCredit.Cfg} (hat : cfg.credit.attenuationStep ≠ 2 ^ 64 - 1) {k : Credit.State} {era : Nat} {a : AccId} : ∀ (n : Nat) (x y : Payout.Loop),
    payLoop cfg k era n x = .ok y →
    y.l.s.stakers = x.l.s.stakers ∧ (x.core.userCredit.get a ≠ none → y.core.userCredit.get a ≠ none) := by
  intro n
  induction n with
  | zero => intro x y h; unfold payLoop at h; cases h; exact ⟨rfl, id⟩
  | succ n ih =>
    intro x y h
    unfold payLoop at h
    split at h
    · cases h; exact ⟨rfl, id⟩
    split at h
    · cases h; exact ⟨rfl, id⟩
    rename_i d _
    split at h
    · cases h
    rename_i r core hp
    have hc : r.1.stakers = x.l.s.stakers ∧ (x.core.userCredit.get a ≠ none → core.userCredit.get a ≠ none) := by
      unfold payDelegator at hp
      split at hp
      · cases hp; exact ⟨rfl, id⟩
      · split at hp
        · cases hp
        · rename_i core' v hr
          cases hp
          refine ⟨payDelegator_stakers _ _ _ _ _, fun hx => ?_⟩
          have hb : Credit.step cfg.credit { k with core := x.core } (.getReward d.who (d.since.getD era) (era - 1)) = ({ k with core := core }, .reward v) := by
            simp only [Credit.step, Credit.body, hr]
            rfl
          have := credit_some hat (k := { k with core := x.core }) (op := .getReward d.who (d.since.getD era) (era - 1)) (a := a)
            (by intro _ _ _ _ e; cases e) (by intro _ _ e; cases e) hx
          rw [hb] at this
          exact this
    simp only at h
    split at h
    · cases h; exact hc
    split at h
    · cases h; exact ⟨(payReferer_stakers _ _ _ _).trans hc.1, hc.2⟩
    obtain ⟨i1, i2⟩ := ih _ _ h
    exact ⟨i1.trans ((payReferer_stakers _ _ _ _).trans hc.1), fun hx => i2 (hc.2 hx)⟩

theorem block_some {cfg : Chain.Cfg} (hf : Fits cfg) (c : Chain.State) (a : AccId) :
    (Payout.step cfg c .block).1.stk.dele.stakers = c.stk.dele.stakers ∧
      (credit c a ≠ none → credit (Payout.step cfg c .block).1 a ≠ none) := by
  simp only [Payout.step]
  split
  · exact ⟨rfl, id⟩
  · rename_i s ps core e
    show s.stakers = c.stk.dele.stakers ∧ (_ → core.userCredit.get a ≠ none)
    unfold onBlock at e
    simp only at e
    split at e
    · cases e; exact ⟨rfl, id⟩
    split at e
    · cases e; exact ⟨rfl, id⟩
    unfold payDelegators at e
    split at e
    · cases e; exact ⟨rfl, id⟩
    split at e
    · cases e
    · rename_i x hx
      cases e
      have := payLoop_some (cfg := cfg.stake) (a := a) hf.step _ _ _ hx
      exact this

/-! ### Who is recorded has credit -/

theorem doDelegate_stakers {cfg : Delegation.Cfg} {s t : Delegation.State} {d : AccId} {vs : List AccId} {p : Bool} (h : Delegation.doDelegate cfg s d vs p = .ok t) :
    t.stakers = s.stakers := by
  unfold Delegation.doDelegate at h
  split at h
  · cases h
  cases h
  show (match s.delegators.get d with | some old => _ | none => _ : Delegation.State).stakers = _
  split <;> rfl

/-- Whoever delegates has a credit record. -/
def Covered (c : Chain.State) : Prop := ∀ a, credit c a = none → Idle c a

theorem stake_covered {cfg : StakingCredit.Cfg} (hat : cfg.credit.attenuationStep ≠ 2 ^ 64 - 1) {x : StakingCredit.State} (op : StakingCredit.Op)
    (h : ∀ a, x.credit.core.userCredit.get a = none → ∀ d, x.dele.delegators.get a = some d → d.delegating = false) :
    let y := (StakingCredit.step cfg x op).1
    (∀ a, y.credit.core.userCredit.get a = none → ∀ d, y.dele.delegators.get a = some d → d.delegating = false) ∧ y.dele.stakers = x.dele.stakers := by
  refine stake_keeps_of cfg (fun u => (∀ a, u.credit.core.userCredit.get a = none → ∀ d, u.dele.delegators.get a = some d → d.delegating = false) ∧
    u.dele.stakers = x.dele.stakers) x op ?_ ?_ ?_ ?_ ?_ ⟨h, rfl⟩
  · intro u t who v hp hu
    unfold StakingCredit.pay at hp
    split at hp
    · cases hp
    · cases hp; exact hu
  · intro u t g n ha hu
    unfold StakingCredit.addCredit at ha
    split at ha
    · cases ha
    rename_i k hk
    cases ha
    refine ⟨fun a hn => hu.1 a ?_, hu.2⟩
    have hb : Credit.step cfg.credit u.credit (.addOrUpdateCredit (staker op) g (some n)) = (k, .done) := by
      simp only [Credit.step, Credit.body, hk]
      rfl
    cases hc : u.credit.core.userCredit.get a with
    | none => rfl
    | some d =>
      have := credit_some hat (k := u.credit) (op := .addOrUpdateCredit (staker op) g (some n)) (a := a) (by intro _ _ _ _ e; cases e) (by intro _ _ e; cases e)
        (by rw [hc]; simp)
      rw [hb] at this
      exact absurd hn this
  · intro u who p q hu
    exact hu
  · intro u t order ht hu
    unfold StakingCredit.delegateAny at ht
    split at ht
    · cases ht
    rename_i d hd
    cases ht
    refine ⟨fun a hn e he => ?_, ?_⟩
    · have hn' : u.credit.core.userCredit.get a = none := by
        cases hc : u.credit.core.userCredit.get a with
        | none => rfl
        | some d =>
          exfalso
          revert hn
          show (if _ then _ else _ : Credit.State).core.userCredit.get a ≠ none
          split
          · rw [hc]; simp
          · exact credit_some hat (k := u.credit) (op := .initDelegatorHistory (staker op)) (a := a) (by intro _ _ _ _ e; cases e) (by intro _ _ e; cases e) (by rw [hc]; simp)
      unfold Delegation.delegateAny at hd
      split at hd
      · cases hd
      have hrec := Delegation.doDelegate_record hd a
      have he' : d.delegators.get a = some e := he
      by_cases hne : staker op = a
      · exfalso
        unfold Delegation.doDelegate at hd
        split at hd
        · cases hd
        rename_i hp
        apply hp
        unfold Credit.passThreshold
        rw [hne, hn']
      · rw [if_neg hne] at hrec
        rw [hrec] at he'
        exact hu.1 a hn' e he'
    · show d.stakers = _
      unfold Delegation.delegateAny at hd
      split at hd
      · cases hd
      rw [doDelegate_stakers hd]
      exact hu.2
  · intro u b hu
    exact hu

theorem payEach_stakers (cfg : Delegation.Cfg) (p : Delegation.Points) (v : Balance) (vs : List AccId) : ∀ (s : Delegation.State) (t : Balance),
    (Delegation.payEachValidator cfg p v vs s t).1.stakers = s.stakers := by
  induction vs with
  | nil => intro s t; rfl
  | cons x vs ih =>
    intro s t
    simp only [Delegation.payEachValidator]
    split
    · exact ih s t
    · rw [ih]

theorem undelegates_stakers (ds : List AccId) : ∀ s : Delegation.State, (ds.foldl Delegation.undelegateOf s).stakers = s.stakers := by
  induction ds with
  | nil => intro s; rfl
  | cons d ds ih => intro s; rw [List.foldl_cons, ih, undelegateOf_stakers]

theorem erase_fold (ks : List (Nat × AccId)) : ∀ (m : FMap (Nat × AccId) Slashing.Exposure) (k : Nat × AccId) (x : Slashing.Exposure),
    (ks.foldl (fun m k => m.erase k) m).get k = some x → m.get k = some x := by
  induction ks with
  | nil => intro m k x h; exact h
  | cons j ks ih =>
    intro m k x h
    have := ih _ k x h
    rw [FMap.get_erase] at this
    split at this
    · cases this
    · exact this

theorem insert_fold (era : Nat) (f : AccId → Slashing.Exposure) (l : List AccId) : ∀ (m : FMap (Nat × AccId) Slashing.Exposure) (k : Nat × AccId)
    (x : Slashing.Exposure), (l.foldl (fun m v => m.insert (era, v) (f v)) m).get k = some x → m.get k = some x ∨ ∃ v, x = f v := by
  induction l with
  | nil => intro m k x h; exact .inl h
  | cons v l ih =>
    intro m k x h
    rcases ih _ k x h with h' | h'
    · rw [FMap.get_insert] at h'
      split at h'
      · exact .inr ⟨v, (Option.some.inj h').symm⟩
      · exact .inl h'
    · exact .inr h'

theorem enter_fields (s : Delegation.State) (e : Nat) :
    (Delegation.enterEra s e).candidates = s.candidates ∧
    ∀ k x, (Delegation.enterEra s e).stakers.get k = some x → s.stakers.get k = some x := by
  unfold Delegation.enterEra
  simp only
  split
  · exact ⟨rfl, fun k x h => erase_fold _ _ k x h⟩
  · exact ⟨rfl, fun k x h => h⟩

theorem newEra_stakers (s : Delegation.State) (order : List AccId) (k : Nat × AccId) (x : Slashing.Exposure)
    (h : (Delegation.newEra s order).1.stakers.get k = some x) :
    s.stakers.get k = some x ∨ ∃ v, ∀ a ∈ x.others, a ∈ Delegation.members s.candidates v := by
  obtain ⟨h1, h2⟩ := enter_fields s (Delegation.nextEra s)
  have hst : ∀ (t : Delegation.State) e o, (Delegation.storeElected t e o).stakers = t.stakers := by
    intro t e o; cases o <;> rfl
  unfold Delegation.newEra at h
  simp only [hst] at h
  unfold Delegation.elect at h
  simp only at h
  split at h
  · exact .inl (h2 k x h)
  · rcases insert_fold _ _ _ _ k x h with h | ⟨v, hv⟩
    · exact .inl (h2 k x h)
    · right
      refine ⟨v, fun a ha => ?_⟩
      rw [hv] at ha
      unfold Delegation.exposureOf at ha
      simp only at ha
      split at ha
      · have : a ∈ Delegation.members ((((Delegation.sortEntries (Delegation.entries (Delegation.enterEra s (Delegation.nextEra s)) order)).take
            (Delegation.enterEra s (Delegation.nextEra s)).validatorCount).map Delegation.Entry.who).foldl (Delegation.markElected (Delegation.nextEra s))
            (Delegation.enterEra s (Delegation.nextEra s)).candidates) v := ha
        rw [Delegation.members_mark, h1] at this
        exact this
      · cases ha

theorem dele_stakers (cfg : Delegation.Cfg) (s : Delegation.State) (op : Delegation.Op) (ho : own (.dele op) = true) (k : Nat × AccId) (x : Slashing.Exposure)
    (h : (Delegation.step cfg s op).1.stakers.get k = some x) :
    s.stakers.get k = some x ∨ ∃ v, ∀ a ∈ x.others, a ∈ Delegation.members s.candidates v := by
  by_cases hn : ∃ order, op = .newEra order
  · obtain ⟨order, rfl⟩ := hn
    exact newEra_stakers s order k x h
  · left
    have : (Delegation.step cfg s op).1.stakers = s.stakers := by
      unfold Delegation.step
      cases hb : Delegation.body cfg s op with
      | error e => rfl
      | ok r =>
        show r.1.stakers = s.stakers
        cases op with
        | delegate d vs q =>
          obtain ⟨t, ht, rfl⟩ := Delegation.map_ok hb
          exact doDelegate_stakers (Delegation.delegate_do ht)
        | delegateAny d o q => cases ho
        | undelegate d =>
          obtain ⟨t, ht, rfl⟩ := Delegation.map_ok hb
          unfold Delegation.undelegate at ht
          split at ht
          · cases ht
          · cases ht; exact undelegateOf_stakers s d
        | forceUndelegate r ds =>
          simp only [Delegation.body] at hb
          split at hb
          · cases hb
          · cases hb; exact undelegates_stakers ds s
        | forceUnstaking r d =>
          simp only [Delegation.body] at hb
          split at hb
          · cases hb
          · cases hb; exact undelegateOf_stakers s d
        | setReferer q a r =>
          obtain ⟨t, ht, rfl⟩ := Delegation.map_ok hb
          unfold Delegation.setReferer at ht
          split at ht
          · cases ht
          · split at ht
            · cases ht
            · cases ht; rfl
        | unsetReferer q a =>
          obtain ⟨t, ht, rfl⟩ := Delegation.map_ok hb
          unfold Delegation.unsetReferer at ht
          split at ht
          · cases ht
          · cases ht; rfl
        | blackList q a e =>
          simp only [Delegation.body] at hb
          split at hb
          · cases hb
          · cases hb; rfl
        | npowMint q t v =>
          obtain ⟨t, ht, rfl⟩ := Delegation.map_ok hb
          unfold Delegation.npowMint at ht
          split at ht
          · cases ht
          · split at ht
            · cases ht
            · cases ht; rfl
        | compensate q l d r p =>
          obtain ⟨t, ht, rfl⟩ := Delegation.map_ok hb
          unfold Delegation.compensate at ht
          split at ht
          · cases ht
          · split at ht
            · cases ht
            · cases ht; rfl
        | increasePool r v =>
          obtain ⟨t, ht, rfl⟩ := Delegation.map_ok hb
          unfold Delegation.increasePool at ht
          split at ht
          · cases ht
          · cases ht; rfl
        | configure e q m w d => cases hb; rfl
        | block r => cases ho
        | endEra e =>
          cases hb
          show (Delegation.payValidators cfg s e).stakers = _
          unfold Delegation.payValidators
          split
          · rfl
          · exact payEach_stakers cfg _ _ _ s 0
        | newEra o => exact absurd ⟨o, rfl⟩ hn
        | addPoints e v n => cases hb; rfl
        | ledger op => cases hb; rfl
    rw [this] at h
    exact h

/-- The accounts on which slashes are waiting. -/
def Waiting (s : Slashing.State) (a : AccId) : Prop := ∃ e, ∃ u ∈ (s.unapplied.get e).getD [], a ∈ u.others

theorem removeAll_sub (idx : List Nat) : ∀ (us : List Slashing.Unapplied) (k : Nat), ∀ u ∈ Slashing.removeAll us k idx, u ∈ us := by
  induction idx with
  | nil => intro us k u h; exact h
  | cons i idx ih => intro us k u h; exact List.mem_of_mem_eraseIdx (ih _ _ u h)

theorem start_queue (cfg : Slashing.Cfg) (s : Slashing.State) (session : Nat) :
    (∀ e u, u ∈ ((Slashing.startEra cfg s session).1.unapplied.get e).getD [] → u ∈ (s.unapplied.get e).getD []) ∧
    ∀ u ∈ applied (Slashing.startEra cfg s session).2, ∃ e, u ∈ (s.unapplied.get e).getD [] := by
  unfold Slashing.startEra
  simp only [applied]
  generalize hs1 : ({ s with active := _, bondedEras := _, eraSlash := _ } : Slashing.State) = s1
  have e1 : s1.unapplied = s.unapplied := by rw [← hs1]
  unfold Slashing.applyUnapplied
  split
  · exact ⟨fun e u h => by rw [e1] at h; exact h, by simp⟩
  · rename_i q hq
    simp only
    generalize hes : List.range' q _ = es
    have hnd : es.Nodup := by rw [← hes]; exact List.nodup_range'
    obtain ⟨-, -, -, -, -, -, h7, h8⟩ := Slashing.applyEras_spec cfg es s1 hnd
    refine ⟨fun e u h => ?_, fun u h => ?_⟩
    · rw [h7] at h
      split at h
      · cases h
      · rw [e1] at h; exact h
    · rw [h8] at h
      obtain ⟨e, _, he⟩ := List.mem_flatMap.1 h
      exact ⟨e, by rw [e1] at he; exact he⟩

theorem offence_queue (cfg : Slashing.Cfg) (s : Slashing.State) (i j : Nat) (v : AccId) (f : Nat) (rs : List AccId) :
    (∀ u ∈ reported (Slashing.onOffence cfg s i j v f rs).2, ∃ e w, u.others = (cfg.exposure e w).others) ∧
    ∀ a, Waiting (Slashing.onOffence cfg s i j v f rs).1 a → Waiting s a ∨ ∃ e w, a ∈ (cfg.exposure e w).others := by
  have hc := Slashing.onOffence_cases cfg s i j v f rs
  generalize Slashing.onOffence cfg s i j v f rs = x at hc
  cases hc with
  | ignored s' q hs' _ => subst hs'; exact ⟨by simp [reported], fun a h => .inl h⟩
  | quiet n e' hn he hi hq =>
    have hf := Slashing.computeSlash_frame cfg { s with earliest := some (s.earliest.getD n) } v f e' (Slashing.window cfg n) n
    refine ⟨by simp [reported], fun a h => .inl ?_⟩
    unfold Waiting at h
    rw [hf.unapplied] at h
    exact h
  | slashed n e' u hn he hi hq =>
    have hf := Slashing.computeSlash_frame cfg { s with earliest := some (s.earliest.getD n) } v f e' (Slashing.window cfg n) n
    have hu : u.others = (cfg.exposure e' v).others := by
      rcases Slashing.compute_fraction cfg { s with earliest := some (s.earliest.getD n) } v f e' (Slashing.window cfg n) n with ⟨h, _⟩ | ⟨u', h, _, h', _⟩
      · rw [hq] at h; cases h
      · rw [hq] at h; cases h; exact h'
    refine ⟨fun w hw => ?_, fun a h => ?_⟩
    · simp only [reported, List.mem_singleton] at hw
      subst hw
      exact ⟨e', v, hu⟩
    · obtain ⟨e, w, hw, ha⟩ := h
      simp only at hw
      rw [(Slashing.enqueue_fields cfg _ n _).2.2.2.2.2.2 e, hf.unapplied] at hw
      simp only at hw
      split at hw
      · rcases List.mem_append.1 hw with h | h
        · exact .inl ⟨e, w, h, ha⟩
        · simp only [List.mem_singleton] at h
          subst h
          refine .inr ⟨e', v, ?_⟩
          rw [← hu]; exact ha
      · exact .inl ⟨e, w, hw, ha⟩

theorem other_queue (cfg : Slashing.Cfg) (s : Slashing.State) (op : Slashing.Op) (h1 : ∀ n, op ≠ .startEra n) (h2 : ∀ i j v f rs, op ≠ .offence i j v f rs)
    (a : AccId) (h : Waiting (Slashing.step cfg s op).1 a) : Waiting s a := by
  cases op with
  | ledger op n =>
    have : (Slashing.step cfg s (.ledger op n)).1.unapplied = s.unapplied := by
      simp only [Slashing.step, Slashing.ledgerCall]
      split
      · rfl
      · exact (Slashing.clearStash_fields _ _).2.2.1
    unfold Waiting at h
    rw [this] at h
    exact h
  | startEra n => exact absurd rfl (h1 n)
  | offence i j v f rs => exact absurd rfl (h2 i j v f rs)
  | cancel k e idx =>
    simp only [Slashing.step] at h
    split at h
    · rename_i s' hc
      obtain ⟨_, _, _, _, rfl⟩ := Slashing.cancel_ok hc
      obtain ⟨e', u, hu, ha⟩ := h
      simp only [FMap.get_insert] at hu
      split at hu
      · exact ⟨e, u, removeAll_sub idx _ _ u hu, ha⟩
      · exact ⟨e', u, hu, ha⟩
    · exact h
  | setInvulnerables l => exact h
  | setRewardProp q => exact h

/-! ### Steps -/

/-- Whoever delegates, is recorded behind a validator or waits for a slash has credit. -/
structure Safe (c : Chain.State) : Prop where
  delegating : Covered c
  recorded : ∀ k x, c.stk.dele.stakers.get k = some x → ∀ a ∈ x.others, credit c a ≠ none
  waiting : ∀ a, Waiting c.slash a → credit c a ≠ none

/-- Everybody recorded has credit. -/
def Keeps (c t : Chain.State) : Prop := ∀ a, credit c a ≠ none → credit t a ≠ none

theorem call_covered {cfg : Chain.Cfg} (hf : Fits cfg) {c : Chain.State} (op : Chain.Op) (ho : own op = true) (hm : mild cfg op) (h : Covered c) :
    Covered (call cfg c op) := by
  intro a hn
  have hb : credit c a = none := by
    cases hc : credit c a with
    | none => rfl
    | some d => exact absurd hn (call_some hf op hm (by rw [hc]; simp))
  by_cases hg : gives a (.chain op) = false
  · exact (call_without hf op ho hg hb).2 (h a hb)
  · cases op with
    | credit op => exact h a hb
    | stake op =>
      refine (stake_covered (cfg := cfg.stake) hf.step (x := Chain.stkOn c) op h).1 a ?_
      exact hn
    | world op => simp [gives] at hg
    | bond op n => simp [gives] at hg
    | slash op => simp [gives] at hg
    | adsc op => simp [gives] at hg
    | dele op => simp [gives] at hg

theorem call_recorded {cfg : Chain.Cfg} (hf : Fits cfg) {c : Chain.State} (hg : Delegation.GInv c.stk.dele) (op : Chain.Op) (ho : own op = true)
    (hm : mild cfg op) (h : Safe c) : ∀ k x, (call cfg c op).stk.dele.stakers.get k = some x → ∀ a ∈ x.others, credit (call cfg c op) a ≠ none := by
  intro k x hx a ha
  refine call_some hf op hm ?_
  have same : (call cfg c op).stk.dele.stakers = c.stk.dele.stakers → credit c a ≠ none := fun e => h.recorded k x (by rw [← e]; exact hx) a ha
  cases op with
  | world op => exact same (by show (Chain.step cfg c (.world op)).stk.dele.stakers = _; simp only [Chain.step]; split <;> rfl)
  | bond op n => exact same (by show (Chain.step cfg c (.bond op n)).stk.dele.stakers = _; simp only [Chain.step]; split <;> rfl)
  | slash op => exact same (by show (Chain.step cfg c (.slash op)).stk.dele.stakers = _; simp only [Chain.step]; split <;> rfl)
  | adsc op => exact same rfl
  | credit op => exact same rfl
  | stake op => exact same (stake_covered (cfg := cfg.stake) hf.step (x := Chain.stkOn c) op h.delegating).2
  | dele op =>
    have hfill : ∃ o, fill cfg c (.dele op) = .dele o ∧ own (.dele o) = true := by
      cases op <;> exact ⟨_, rfl, ho⟩
    obtain ⟨o, eo, ho'⟩ := hfill
    have hx' : (Chain.step cfg c (fill cfg c (.dele op))).stk.dele.stakers.get k = some x := hx
    rw [eo] at hx'
    simp only [Chain.step] at hx'
    split at hx'
    · rcases dele_stakers cfg.dele (Chain.stkOn c).dele o ho' k x hx' with h' | ⟨v, h'⟩
      · exact h.recorded k x h' a ha
      · intro hn
        obtain ⟨d, h1, h2, _⟩ := (hg.sym a v).1 (h' a ha)
        rw [h.delegating a hn d h1] at h2
        cases h2
    · exact h.recorded k x hx' a ha

theorem call_slash (cfg : Chain.Cfg) (c : Chain.State) (op : Chain.Op) : (call cfg c op).slash = (Chain.step cfg c op).slash := by
  show (Chain.step cfg c (fill cfg c op)).slash = _
  cases op with
  | dele op =>
    have hfill : ∃ o, fill cfg c (.dele op) = .dele o := by cases op <;> exact ⟨_, rfl⟩
    obtain ⟨o, eo⟩ := hfill
    have : ∀ o, (Chain.step cfg c (.dele o)).slash = c.slash := by intro o; simp only [Chain.step]; split <;> rfl
    rw [eo, this, this]
  | _ => rfl

/-- A call that reports no offence and starts no era. -/
def calm : Chain.Op → Bool
  | .slash (.startEra _) => false
  | .slash (.offence ..) => false
  | _ => true

theorem call_waiting {cfg : Chain.Cfg} {c : Chain.State} (op : Chain.Op) (hc : calm op = true) (a : AccId) (h : Waiting (call cfg c op).slash a) :
    Waiting c.slash a := by
  rw [call_slash] at h
  cases op with
  | world op => revert h; simp only [Chain.step]; split <;> exact id
  | bond op n =>
    revert h
    simp only [Chain.step]
    split
    · exact fun h => other_queue cfg.offences { c.slash with led := Chain.led c } (.ledger op n) (by simp) (by simp) a h
    · exact id
  | slash op =>
    revert h
    simp only [Chain.step]
    split
    · refine fun h => other_queue cfg.offences { c.slash with led := Chain.led c } op ?_ ?_ a h
      · rintro n rfl; cases hc
      · rintro i j v f rs rfl; cases hc
    · exact id
  | adsc op => exact h
  | credit op => exact h
  | stake op => exact h
  | dele op => revert h; simp only [Chain.step]; split <;> exact id

theorem call_safe {cfg : Chain.Cfg} (hf : Fits cfg) {c : Chain.State} (hg : Delegation.GInv c.stk.dele) (op : Chain.Op) (ho : own op = true)
    (hm : mild cfg op) (hc : calm op = true) (h : Safe c) : Safe (call cfg c op) ∧ Keeps c (call cfg c op) :=
  ⟨⟨call_covered hf op ho hm h.delegating, call_recorded hf hg op ho hm h, fun a ha => call_some hf op hm (h.waiting a (call_waiting op hc a ha))⟩,
    fun _ => call_some hf op hm⟩

theorem good_call {cfg : Chain.Cfg} (hf : Fits cfg) {c : Chain.State} {ps : List Delegation.Payment} (h : Good cfg c ps) (op : Chain.Op) (ho : own op = true)
    (hs : Sound cfg c (.chain op)) : Good cfg (call cfg c op) ps := by
  have := good_step hf h (.chain op) hs
  simp only [Payout.step, ho, if_true, Out.payments, List.append_nil] at this
  exact this

/-- What single penalties keep. -/
structure Fine (cfg : Chain.Cfg) (c : Chain.State) (ps : List Delegation.Payment) : Prop where
  good : Good cfg c ps
  safe : Safe c

theorem Keeps.trans {a b c : Chain.State} (h : Keeps a b) (h' : Keeps b c) : Keeps a c := fun x hx => h' x (h x hx)

theorem fine_slash {cfg : Chain.Cfg} (hf : Fits cfg) {c t : Chain.State} {ps : List Delegation.Payment} (h : Fine cfg c ps) {a : AccId} {n : Option Nat}
    (hn : n.getD cfg.stk.credit.attenuationStep ≠ 2 ^ 64 - 1) (ht : slashCredit cfg c a n = some t) : Fine cfg t ps ∧ Keeps c t := by
  obtain ⟨rfl, -⟩ := slash_ok ht
  obtain ⟨h1, h2⟩ := call_safe hf h.good.graph (.credit (.slashCredit a n)) rfl hn rfl h.safe
  exact ⟨⟨good_call hf h.good _ rfl ⟨trivial, trivial⟩, h1⟩, h2⟩

theorem fine_undelegate {cfg : Chain.Cfg} (hf : Fits cfg) {c : Chain.State} {ps : List Delegation.Payment} (h : Fine cfg c ps) (a : AccId) :
    Fine cfg (undelegate cfg c a) ps ∧ Keeps c (undelegate cfg c a) := by
  obtain ⟨h1, h2⟩ := call_safe hf h.good.graph (.dele (.forceUndelegate true [a])) rfl trivial rfl h.safe
  exact ⟨⟨good_call hf h.good _ rfl trivial, h1⟩, h2⟩

theorem fine_slashes {cfg : Chain.Cfg} (hf : Fits cfg) {ps : List Delegation.Payment} : ∀ (l : List AccId) {c t : Chain.State}, Fine cfg c ps →
    creditSlashes cfg c l = some t → Fine cfg t ps ∧ Keeps c t := by
  intro l
  induction l with
  | nil => intro c t h ht; cases ht; exact ⟨h, fun _ => id⟩
  | cons a l ih =>
    intro c t h ht
    obtain ⟨u, hu, hl⟩ := Option.bind_eq_some_iff.1 (show (creditSlash cfg c a).bind _ = some t from ht)
    unfold creditSlash at hu
    obtain ⟨v, hv, rfl⟩ := Option.map_eq_some_iff.1 hu
    obtain ⟨h1, k1⟩ := fine_slash hf h (n := none) hf.step hv
    split at hl
    · obtain ⟨h2, k2⟩ := ih h1 hl
      exact ⟨h2, k1.trans k2⟩
    · obtain ⟨h2, k2⟩ := fine_undelegate hf h1 a
      obtain ⟨h3, k3⟩ := ih h2 hl
      exact ⟨h3, (k1.trans k2).trans k3⟩

theorem fine_forced {cfg : Chain.Cfg} (hf : Fits cfg) {ps : List Delegation.Payment} : ∀ (l : List (AccId × Nat)) {c t : Chain.State}, Fine cfg c ps →
    (∀ x ∈ l, x.2 ≠ 2 ^ 64 - 1) → forceUndelegates cfg c l = some t → Fine cfg t ps ∧ Keeps c t := by
  intro l
  induction l with
  | nil => intro c t h _ ht; cases ht; exact ⟨h, fun _ => id⟩
  | cons x l ih =>
    intro c t h hx ht
    obtain ⟨u, hu, hl⟩ := Option.bind_eq_some_iff.1 (show (slashCredit cfg c x.1 (some x.2)).bind _ = some t from ht)
    obtain ⟨h1, k1⟩ := fine_slash hf h (n := some x.2) (hx x (List.mem_cons_self ..)) hu
    obtain ⟨h2, k2⟩ := fine_undelegate hf h1 x.1
    obtain ⟨h3, k3⟩ := ih h2 (fun y hy => hx y (List.mem_cons_of_mem _ hy)) hl
    exact ⟨h3, (k1.trans k2).trans k3⟩

/-- A slash call keeps everything but the queue. -/
theorem slash_stk (cfg : Chain.Cfg) (c : Chain.State) (op : Slashing.Op) :
    (∀ a, credit (call cfg c (.slash op)) a = credit c a) ∧ (call cfg c (.slash op)).stk.dele = c.stk.dele := by
  have e : (Chain.step cfg c (.slash op)).stk = c.stk := by simp only [Chain.step]; split <;> rfl
  refine ⟨fun a => ?_, ?_⟩
  · show (Chain.step cfg c (.slash op)).stk.credit.core.userCredit.get a = _
    rw [e]; rfl
  · show (Chain.step cfg c (.slash op)).stk.dele = _
    rw [e]

theorem fine_call_slash {cfg : Chain.Cfg} (hf : Fits cfg) {c : Chain.State} {ps : List Delegation.Payment} (h : Fine cfg c ps) (op : Slashing.Op)
    (hw : ∀ a, Waiting (call cfg c (.slash op)).slash a → credit c a ≠ none) : Fine cfg (call cfg c (.slash op)) ps := by
  obtain ⟨h1, h2⟩ := slash_stk cfg c op
  refine ⟨good_call hf h.good (.slash op) rfl trivial, ⟨fun a hn => ?_, fun k x hx a ha => ?_, fun a ha => ?_⟩⟩
  · rw [h1] at hn
    unfold Idle
    rw [h2]
    exact h.safe.delegating a hn
  · rw [h1]
    rw [h2] at hx
    exact h.safe.recorded k x hx a ha
  · rw [h1]
    exact hw a ha

/-- What an operation may bring: nothing that makes histories of credit end in the future, and an offence names delegators with credit. -/
def Reasonable (cfg : Chain.Cfg) (c : Chain.State) : Op → Prop
  | .pay op => Sound cfg c op
  | _ => True

/-- The exposure an operation reports. -/
def exposureOf : Op → Option Slashing.Exposure
  | .offence _ _ _ x _ _ => some x
  | _ => none

theorem step_fine {cfg : Chain.Cfg} (hf : Fits cfg) {c : Chain.State} {ps : List Delegation.Payment} (h : Fine cfg c ps) (op : Op)
    (hr : Reasonable cfg c op) (hx : ∀ x, exposureOf op = some x → ∀ a ∈ x.others, credit c a ≠ none) (hd : deletes op = false) :
    (∃ qs, Fine cfg (step cfg c op).1 (ps ++ qs)) ∧ Keeps c (step cfg c op).1 ∧ (step cfg c op).2 ≠ .halted := by
  have zero : ∀ {t : Chain.State}, Fine cfg t ps → ∃ qs, Fine cfg t (ps ++ qs) := fun h => ⟨[], by rw [List.append_nil]; exact h⟩
  cases op with
  | pay op =>
    simp only [step]
    by_cases hp : passes op = true
    · rw [if_pos hp]
      have hg := good_step hf h.good op hr
      cases op with
      | chain op =>
        have hm : mild cfg op := by
          unfold mild
          split
          · simpa [deletes] using hd
          · simpa [deletes] using hd
          · cases hp
          · trivial
        have hc : calm op = true := by
          unfold calm
          split
          · cases hp
          · cases hp
          · rfl
        refine ⟨⟨_, hg, ?_⟩, ?_, ?_⟩
        · simp only [Payout.step]
          split
          · rename_i ho; exact (call_safe hf h.good.graph op ho hm hc h.safe).1
          · exact h.safe
        · simp only [Payout.step]
          split
          · rename_i ho; exact (call_safe hf h.good.graph op ho hm hc h.safe).2
          · exact fun _ => id
        · simp [Payout.step, Out.ofPayout]
      | block =>
        have hk : Keeps c (Payout.step cfg c .block).1 := fun a => (block_some hf c a).2
        have hsl : (Payout.step cfg c .block).1.slash = c.slash := by simp only [Payout.step]; split <;> rfl
        refine ⟨⟨_, hg, ⟨fun a hn => ?_, fun k x hx a ha => ?_, fun a ha => ?_⟩⟩, hk, ?_⟩
        · have hb : credit c a = none := by
            cases hc : credit c a with
            | none => rfl
            | some d => exact absurd hn (hk a (by rw [hc]; simp))
          exact (step_without hf h.good .block rfl hb).2.1 (h.safe.delegating a hb)
        · refine hk a (h.safe.recorded k x ?_ a ha)
          rw [← (block_some hf c a).1]; exact hx
        · rw [hsl] at ha
          exact hk a (h.safe.waiting a ha)
        · obtain ⟨core, qs, e, _⟩ := inv_block hf h.good.inv
          rw [e]
          simp [Out.ofPayout]
    · rw [if_neg hp]
      exact ⟨zero h, fun _ => id, by simp⟩
  | startEra session =>
    obtain ⟨q1, q2⟩ := start_queue cfg.offences { c.slash with led := Chain.led c } session
    have h1 : Fine cfg (call cfg c (.slash (.startEra session))) ps := by
      refine fine_call_slash hf h _ fun a ha => h.safe.waiting a ?_
      rw [call_slash] at ha
      obtain ⟨e, u, hu, hua⟩ := ha
      exact ⟨e, u, q1 e u hu, hua⟩
    simp only [step]
    split
    · rename_i hn
      exfalso
      obtain ⟨a, ha, hc⟩ := (slashes_none hf.step _ _).1 hn
      rw [(slash_stk cfg c _).1] at hc
      obtain ⟨u, hu, hua⟩ := List.mem_flatMap.1 ha
      obtain ⟨e, he⟩ := q2 u hu
      exact h.safe.waiting a ⟨e, u, he, hua⟩ hc
    · rename_i t ht
      obtain ⟨h2, k2⟩ := fine_slashes hf _ h1 ht
      refine ⟨zero h2, fun a ha => k2 a ?_, by simp⟩
      rw [(slash_stk cfg c _).1]; exact ha
  | offence i j v x f rs =>
    obtain ⟨q1, q2⟩ := offence_queue (here cfg x).offences { c.slash with led := Chain.led c } i j v f rs
    have hxo : ∀ a ∈ x.others, credit c a ≠ none := hx x rfl
    have hf' : Fits (here cfg x) := ⟨hf.eras, hf.step⟩
    have h' : Fine (here cfg x) c ps := ⟨⟨h.good.inv, h.good.graph, h.good.locks⟩, h.safe⟩
    have h1' : Fine (here cfg x) (call (here cfg x) c (.slash (.offence i j v f rs))) ps := by
      refine fine_call_slash hf' h' _ fun a ha => ?_
      rw [call_slash] at ha
      rcases q2 a ha with hw | ⟨e, w, hw⟩
      · exact h.safe.waiting a hw
      · exact hxo a hw
    have h1 : Fine cfg (call (here cfg x) c (.slash (.offence i j v f rs))) ps := ⟨⟨h1'.good.inv, h1'.good.graph, h1'.good.locks⟩, h1'.safe⟩
    have hk : Keeps c (call (here cfg x) c (.slash (.offence i j v f rs))) := by
      intro a ha
      rw [(slash_stk (here cfg x) c _).1]; exact ha
    simp only [step]
    split
    · split
      · rename_i hn
        exfalso
        obtain ⟨a, ha, hc⟩ := (slashes_none hf.step _ _).1 hn
        rw [(slash_stk (here cfg x) c _).1] at hc
        obtain ⟨u, hu, hua⟩ := List.mem_flatMap.1 ha
        obtain ⟨e, w, he⟩ := q1 u hu
        rw [he] at hua
        exact hxo a hua hc
      · rename_i t ht
        obtain ⟨h2, k2⟩ := fine_slashes hf _ h1 ht
        exact ⟨zero h2, hk.trans k2, by simp⟩
    · exact ⟨zero h1, hk, by simp⟩
  | forceUndelegate root l =>
    simp only [step]
    split
    · exact ⟨zero h, fun _ => id, by simp⟩
    · split
      · exact ⟨zero h, fun _ => id, by simp⟩
      · rename_i t ht
        obtain ⟨h2, k2⟩ := fine_forced hf l h (fun y hy hm => by
          have : deletes (.forceUndelegate root l) = true := by
            simp only [deletes, List.any_eq_true, decide_eq_true_eq]
            exact ⟨y, hy, hm⟩
          rw [hd] at this; cases this) ht
        exact ⟨zero h2, k2, by simp⟩

/-! ### Histories -/

theorem run_snoc (cfg : Chain.Cfg) (op : Op) : ∀ (ops : List Op) (c : Chain.State),
    run cfg c (ops ++ [op]) = ((step cfg (run cfg c ops).1 op).1, (run cfg c ops).2 ++ [((run cfg c ops).1, op, (step cfg (run cfg c ops).1 op).2)]) := by
  intro ops
  induction ops with
  | nil => intro c; rfl
  | cons o ops ih => intro c; simp [run, ih]

/-- The reports of a history name exposures recorded before, or nobody. -/
def Recorded (cfg : Chain.Cfg) (c : Chain.State) (ops : List Op) : Prop :=
  ∀ n i j v x f rs, ops[n]? = some (.offence i j v x f rs) →
    x.others = [] ∨ ∃ m ≤ n, ∃ k, (run cfg c (ops.take m)).1.stk.dele.stakers.get k = some x

theorem fine_run {cfg : Chain.Cfg} (hf : Fits cfg) {c : Chain.State} (h : Fine cfg c []) (ops : List Op) :
    (∀ e ∈ (run cfg c ops).2, Reasonable cfg e.1 e.2.1) → Recorded cfg c ops → (∀ op ∈ ops, deletes op = false) →
    (∃ ps, Fine cfg (run cfg c ops).1 ps) ∧ (∀ m k x, (run cfg c (ops.take m)).1.stk.dele.stakers.get k = some x → ∀ a ∈ x.others, credit (run cfg c ops).1 a ≠ none) ∧
    ∀ e ∈ (run cfg c ops).2, e.2.2 ≠ .halted := by
  induction ops using List.reverseRecOn with
  | nil =>
    intro _ _ _
    refine ⟨⟨[], h⟩, fun m k x hx a ha => ?_, by simp [run]⟩
    rw [List.take_nil] at hx
    exact h.safe.recorded k x hx a ha
  | append_singleton ops op ih =>
    intro hr hx hd
    rw [run_snoc] at hr ⊢
    have htake : ∀ m, m ≤ ops.length → (ops ++ [op]).take m = ops.take m := fun m hm => List.take_append_of_le_length hm
    obtain ⟨⟨ps, h1⟩, h2, h3⟩ := ih (fun e he => hr e (List.mem_append_left _ he))
      (fun n i j v x f rs hn => by
        have hlt : n < ops.length := (List.getElem?_eq_some_iff.1 hn).1
        rcases hx n i j v x f rs (by rw [List.getElem?_append_left hlt]; exact hn) with h | ⟨m, hm, k, hk⟩
        · exact .inl h
        · refine .inr ⟨m, hm, k, ?_⟩
          rw [htake m (by omega)] at hk; exact hk)
      (fun o ho => hd o (List.mem_append_left _ ho))
    have hxo : ∀ x, exposureOf op = some x → ∀ a ∈ x.others, credit (run cfg c ops).1 a ≠ none := by
      intro x he a ha
      unfold exposureOf at he
      split at he
      · rename_i i j v y f rs
        cases he
        rcases hx ops.length i j v x f rs (by simp) with h | ⟨m, hm, k, hk⟩
        · rw [h] at ha; cases ha
        · rw [htake m hm] at hk
          exact h2 m k x hk a ha
      · cases he
    obtain ⟨⟨qs, g1⟩, g2, g3⟩ := step_fine hf h1 op (hr _ (List.mem_append_right _ (List.mem_singleton_self _))) hxo (hd op (by simp))
    refine ⟨⟨_, g1⟩, fun m k x hk a ha => ?_, fun e he => ?_⟩
    · by_cases hm : m ≤ ops.length
      · rw [htake m hm] at hk
        exact g2 a (h2 m k x hk a ha)
      · rw [List.take_of_length_le (by simp; omega), run_snoc] at hk
        exact g1.safe.recorded k x hk a ha
    · rcases List.mem_append.1 he with he | he
      · exact h3 e he
      · rw [List.mem_singleton.1 he]; exact g3

/-! ### C123: delegators of slashed validators -/

theorem due_eq (cfg : Chain.Cfg) (c : Chain.State) (session : Nat) :
    applied (Slashing.startEra cfg.offences { c.slash with led := Chain.led c } session).2 = due cfg c := by
  unfold Slashing.startEra due
  simp only [applied]
  generalize hs1 : ({ c.slash with led := _, active := _, bondedEras := _, eraSlash := _ } : Slashing.State) = s1
  have e1 : s1.unapplied = c.slash.unapplied := by rw [← hs1]
  have e2 : s1.earliest = c.slash.earliest := by rw [← hs1]
  unfold Slashing.applyUnapplied
  rw [e2]
  cases c.slash.earliest with
  | none => rfl
  | some q =>
    obtain ⟨-, -, -, -, -, -, -, h8⟩ := Slashing.applyEras_spec cfg.offences (List.range' q ((match c.slash.active with | some k => k + 1 | none => 0) - cfg.slash.defer - q)) s1 List.nodup_range'
    rw [e1] at h8
    cases ha : c.slash.active with
    | none => rw [ha] at h8; exact h8
    | some k => rw [ha] at h8; exact h8

theorem enough_iff {cfg : Chain.Cfg} {c : Chain.State} {a : AccId} : Credit.passThreshold cfg.stk.credit c.stk.credit a = true ↔ Enough cfg c a := by
  unfold Credit.passThreshold Enough credit
  cases c.stk.credit.core.userCredit.get a with
  | none => simp
  | some d => simp [Credit.passData]

/-- At the start of an era the slashes waiting long enough are applied. The chain stops if one of them is for a delegator
without credit. Otherwise each delegator behind a slashed validator loses one step of credit for each slash, delegations
end for those who are left with too little, and no other account loses credit or its delegation; money is moved as by the
slashes alone. -/
theorem C123_era_start (cfg : Chain.Cfg) (hs : cfg.stk.credit.attenuationStep ≠ 2 ^ 64 - 1) (c : Chain.State) (hw : World.settle c.w = c.w) (session : Nat) :
    let r := step cfg c (.startEra session)
    (r.2 = .halted ↔ ∃ u ∈ due cfg c, ∃ a ∈ u.others, credit c a = none) ∧
    (r.2 = .halted → r.1 = c) ∧
    (r.2 ≠ .halted →
      r.2 = .started (due cfg c) ∧
      (∀ a, credit r.1 a = (credit c a).map (after ((hit (due cfg c)).count a) cfg.stk.credit.attenuationStep)) ∧
      (∀ a ∈ hit (due cfg c), ¬ Enough cfg r.1 a → Idle r.1 a) ∧
      (∀ a, (a ∉ hit (due cfg c) ∨ Enough cfg r.1 a ∨ Idle c a) → r.1.stk.dele.delegators.get a = c.stk.dele.delegators.get a) ∧
      r.1.w = (Chain.step cfg c (.slash (.startEra session))).w ∧ r.1.slash = (Chain.step cfg c (.slash (.startEra session))).slash) := by
  intro r
  obtain ⟨e1, e2⟩ := slash_stk cfg c (.startEra session)
  have hnone := slashes_none hs (hit (due cfg c)) (call cfg c (.slash (.startEra session)))
  have hr : r = match creditSlashes cfg (call cfg c (.slash (.startEra session))) (hit (due cfg c)) with
      | none => (c, .halted)
      | some t => (t, .started (due cfg c)) := by
    show step cfg c (.startEra session) = _
    simp only [step]
    rw [due_eq]
    rfl
  have hmem : (∃ a ∈ hit (due cfg c), credit (call cfg c (.slash (.startEra session))) a = none) ↔ ∃ u ∈ due cfg c, ∃ a ∈ u.others, credit c a = none := by
    constructor
    · rintro ⟨a, ha, hn⟩
      obtain ⟨u, hu, hua⟩ := List.mem_flatMap.1 ha
      exact ⟨u, hu, a, hua, by rw [← e1]; exact hn⟩
    · rintro ⟨u, hu, a, hua, hn⟩
      exact ⟨a, List.mem_flatMap.2 ⟨u, hu, hua⟩, by rw [e1]; exact hn⟩
  rw [hmem] at hnone
  cases hc : creditSlashes cfg (call cfg c (.slash (.startEra session))) (hit (due cfg c)) with
  | none =>
    rw [hc] at hr
    simp only at hr
    rw [hr]
    refine ⟨⟨fun _ => hnone.1 hc, fun _ => rfl⟩, fun _ => rfl, fun h => absurd rfl h⟩
  | some t =>
    rw [hc] at hr
    simp only at hr
    rw [hr]
    have i := slashes_ok hs _ _ _ hc
    refine ⟨⟨fun h => (by cases h), fun h => by have := hnone.2 h; rw [hc] at this; cases this⟩, fun h => (by cases h), fun _ => ⟨rfl, fun a => ?_, fun a ha hn => ?_, fun a ha => ?_, ?_, ?_⟩⟩
    · show credit t a = _
      rw [i.credit a, e1]
    · refine i.below a ha ?_
      cases hp : Credit.passThreshold cfg.stk.credit t.stk.credit a with
      | false => rfl
      | true => exact absurd (enough_iff.1 hp) hn
    · show t.stk.dele.delegators.get a = _
      rw [i.kept a, e2]
      rcases ha with h | h | h
      · exact .inl h
      · exact .inr (.inl (enough_iff.2 h))
      · refine .inr (.inr ?_)
        unfold Idle
        rw [e2]
        exact h
    · have hcw : (call cfg c (.slash (.startEra session))).w = (Chain.step cfg c (.slash (.startEra session))).w := rfl
      show t.w = _
      rw [i.money ?_, hcw]
      rw [hcw]
      exact Chain.settled_step cfg _ hw
    · show t.slash = _
      rw [i.slash, call_slash]

/-- Reports of offences take neither credit nor delegations as long as slashes are deferred. -/
theorem C123_report (cfg : Chain.Cfg) (hd : cfg.slash.defer ≠ 0) (c : Chain.State) (i j : Nat) (v : AccId) (x : Slashing.Exposure) (f : Nat) (rs : List AccId) :
    let r := step cfg c (.offence i j v x f rs)
    r.2 = .done [] ∧ (∀ a, credit r.1 a = credit c a) ∧ r.1.stk.dele = c.stk.dele := by
  intro r
  have hr : r = (call (here cfg x) c (.slash (.offence i j v f rs)), .done []) := by
    show step cfg c (.offence i j v x f rs) = _
    simp only [step]
    rw [if_neg hd]
  rw [hr]
  exact ⟨rfl, (slash_stk (here cfg x) c _).1, (slash_stk (here cfg x) c _).2⟩

/-- The chain never stops at slashes of delegators if nobody's credit is deleted: forced unstaking and penalties of
`u64::MAX` are missing, see the example below. -/
theorem C123_no_halt_partial (cfg : Chain.Cfg) (hf : Fits cfg) {c : Chain.State} (hst : Start c) (hw : World.settle c.w = c.w)
    (hg : ∃ bank m, c.stk.dele = Delegation.genesis bank m) (hu : c.slash.unapplied = ∅) (ops : List Op)
    (hs : ∀ e ∈ (run cfg c ops).2, Reasonable cfg e.1 e.2.1) (hx : Recorded cfg c ops) (hd : ∀ op ∈ ops, deletes op = false) :
    ∀ e ∈ (run cfg c ops).2, e.2.2 ≠ .halted := by
  refine (fine_run hf ⟨good_start hst hw hg, ⟨fun a _ d hd => ?_, fun k x hk => ?_, fun a ha => ?_⟩⟩ ops hs hx hd).2.2
  · rw [hst.nobody] at hd; cases hd
  · obtain ⟨bank, m, e⟩ := hg
    rw [e] at hk; cases hk
  · obtain ⟨e, u, he, _⟩ := ha
    rw [hu] at he; cases he

/-! ### C124: delegations ended by force -/

structure Forced (c t : Chain.State) (l : List (AccId × Nat)) : Prop where
  credit : ∀ a, some (credit t a) = fate (credit c a) (scores a l)
  slash : t.slash = c.slash
  money : World.settle c.w = c.w → t.w = c.w
  ended : ∀ x ∈ l, Idle t x.1
  kept : ∀ a, (a ∉ l.map Prod.fst ∨ Idle c a) → t.stk.dele.delegators.get a = c.stk.dele.delegators.get a

theorem scores_cons (a : AccId) (x : AccId × Nat) (l : List (AccId × Nat)) : scores a (x :: l) = if x.1 = a then x.2 :: scores a l else scores a l := by
  unfold scores
  rw [List.filter_cons]
  by_cases h : x.1 = a <;> simp [h]

theorem fate_punished (r : Option Credit.Data) (n : Nat) (ns : List Nat) (h : n = 2 ^ 64 - 1 ∨ r ≠ none) : fate r (n :: ns) = fate (Credit.punished r n) ns := by
  unfold Credit.punished
  conv => lhs; unfold fate
  split
  · rfl
  · rename_i hn
    rcases h with h | h
    · exact absurd h hn
    · cases r with
      | none => exact absurd rfl h
      | some d => rfl

theorem forced_law {cfg : Chain.Cfg} : ∀ (l : List (AccId × Nat)) (c : Chain.State),
    (forceUndelegates cfg c l = none ↔ ∃ a, fate (credit c a) (scores a l) = none) ∧
    ∀ t, forceUndelegates cfg c l = some t → Forced c t l := by
  intro l
  induction l with
  | nil =>
    intro c
    refine ⟨by simp [forceUndelegates, scores, fate], fun t ht => ?_⟩
    cases ht
    exact ⟨fun a => by simp [scores, fate], (rfl), fun _ => rfl, by simp, fun _ _ => rfl⟩
  | cons x l ih =>
    intro c
    cases hu : slashCredit cfg c x.1 (some x.2) with
    | none =>
      have hn : x.2 ≠ 2 ^ 64 - 1 := fun e => by rw [e] at hu; exact slash_max hu
      have hc := (slash_none (cfg := cfg) (c := c) (a := x.1) (n := some x.2) hn).1 hu
      simp only [forceUndelegates, hu, Option.bind_none]
      refine ⟨⟨fun _ => ⟨x.1, ?_⟩, fun _ => trivial⟩, fun t h => by cases h⟩
      rw [scores_cons, if_pos rfl, hc]
      unfold fate
      rw [if_neg hn]
    | some u =>
      simp only [forceUndelegates, hu, Option.bind_some]
      obtain ⟨-, h1, h2, h3, h4⟩ := slash_ok hu
      simp only [Option.getD_some] at h1
      obtain ⟨k1, k2, k3, k4, k5, k6, k7⟩ := undelegate_spec cfg u x.1
      have hok : x.2 = 2 ^ 64 - 1 ∨ credit c x.1 ≠ none := by
        by_cases hn : x.2 = 2 ^ 64 - 1
        · exact .inl hn
        · right
          intro hc
          rw [(slash_none (cfg := cfg) (c := c) (a := x.1) (n := some x.2) hn).2 hc] at hu
          cases hu
      have hf : ∀ a, fate (credit c a) (scores a (x :: l)) = fate (credit (undelegate cfg u x.1) a) (scores a l) := by
        intro a
        rw [scores_cons, k1, h1]
        by_cases e : a = x.1
        · subst e
          rw [if_pos rfl, if_pos rfl]
          exact fate_punished _ _ _ hok
        · rw [if_neg (fun h => e h.symm), if_neg e]
      obtain ⟨i1, i2⟩ := ih (undelegate cfg u x.1)
      refine ⟨?_, fun t ht => ?_⟩
      · rw [i1]
        simp only [hf]
      · have i := i2 t ht
        have hkeep : ∀ a, Idle (undelegate cfg u x.1) a → t.stk.dele.delegators.get a = (undelegate cfg u x.1).stk.dele.delegators.get a := fun a h => i.kept a (.inr h)
        refine ⟨fun a => by rw [i.credit, hf], i.slash.trans (k2.trans h3), fun e => ?_, fun y hy => ?_, fun a ha => ?_⟩
        · have e1 : (undelegate cfg u x.1).w = c.w := by rw [k3, h4, e, e]
          rw [i.money (by rw [e1, e]), e1]
        · rcases List.mem_cons.1 hy with rfl | hy
          · unfold Idle
            rw [hkeep _ k5]
            exact k5
          · exact i.ended y hy
        · have hu2 : (undelegate cfg u x.1).stk.dele.delegators.get a = c.stk.dele.delegators.get a := by
            by_cases e : a = x.1
            · subst e
              rw [k6, h2]
              rcases ha with h | h
              · exact absurd (by simp) h
              · unfold Idle; rw [h2]; exact h
            · rw [k4 a e, h2]
          rw [i.kept a, hu2]
          rcases ha with h | h
          · exact .inl fun h' => h (by simp at h' ⊢; exact .inr h')
          · refine .inr ?_
            unfold Idle
            rw [hu2]
            exact h

/-- Only root ends delegations by force. The call has no effect if it penalises an account without credit, other than by
`u64::MAX`; otherwise each account loses the points listed, all its credit for `u64::MAX`, and its delegation; nobody
else loses credit or a delegation, no money is moved and waiting slashes stay. -/
theorem C124_forced (cfg : Chain.Cfg) (c : Chain.State) (hw : World.settle c.w = c.w) (root : Bool) (l : List (AccId × Nat)) :
    let r := step cfg c (.forceUndelegate root l)
    (r.2 = .refused ↔ root = false) ∧
    (r.2 = .panicked ↔ root = true ∧ ∃ a, fate (credit c a) (scores a l) = none) ∧
    (r.2 = .refused ∨ r.2 = .panicked → r.1 = c) ∧
    (r.2 ≠ .refused → r.2 ≠ .panicked →
      r.2 = .done [] ∧ (∀ a, some (credit r.1 a) = fate (credit c a) (scores a l)) ∧ (∀ x ∈ l, Idle r.1 x.1) ∧
      (∀ a, a ∉ l.map Prod.fst → r.1.stk.dele.delegators.get a = c.stk.dele.delegators.get a) ∧ r.1.w = c.w ∧ r.1.slash = c.slash) := by
  intro r
  cases root with
  | false =>
    have hr : r = (c, .refused) := rfl
    rw [hr]
    exact ⟨⟨fun _ => rfl, fun _ => rfl⟩, ⟨fun h => (by cases h), fun h => (by cases h.1)⟩, fun _ => rfl, fun h => absurd rfl h⟩
  | true =>
    obtain ⟨h1, h2⟩ := forced_law (cfg := cfg) l c
    have hr : r = match forceUndelegates cfg c l with | none => (c, .panicked) | some t => (t, .done []) := rfl
    cases hc : forceUndelegates cfg c l with
    | none =>
      rw [hc] at hr
      simp only at hr
      rw [hr]
      exact ⟨⟨fun h => (by cases h), fun h => by cases h⟩, ⟨fun _ => ⟨rfl, h1.1 hc⟩, fun _ => rfl⟩, fun _ => rfl, fun _ h => absurd rfl h⟩
    | some t =>
      rw [hc] at hr
      simp only at hr
      rw [hr]
      have i := h2 t hc
      refine ⟨⟨fun h => (by cases h), fun h => (by cases h)⟩, ⟨fun h => (by cases h), fun h => (by have := h1.2 h.2; rw [hc] at this; cases this)⟩, fun h => (by rcases h with h | h <;> cases h), fun _ _ => ?_⟩
      exact ⟨rfl, i.credit, i.ended, fun a ha => i.kept a (.inl ha), i.money hw, i.slash⟩

/-- The account with one entry: the points listed, or everything. -/
theorem C124_single (cfg : Chain.Cfg) (c : Chain.State) (hw : World.settle c.w = c.w) (l : List (AccId × Nat)) (hl : (l.map Prod.fst).Nodup)
    (hc : ∀ x ∈ l, x.2 = 2 ^ 64 - 1 ∨ credit c x.1 ≠ none) :
    let r := step cfg c (.forceUndelegate true l)
    r.2 = .done [] ∧ ∀ x ∈ l, Idle r.1 x.1 ∧ credit r.1 x.1 = if x.2 = 2 ^ 64 - 1 then none else (credit c x.1).map (lowered · x.2) := by
  intro r
  obtain ⟨h1, h2, -, h4⟩ := C124_forced cfg c hw true l
  have hsc : ∀ (l : List (AccId × Nat)), (l.map Prod.fst).Nodup → ∀ x ∈ l, scores x.1 l = [x.2] := by
    intro l
    induction l with
    | nil => intro _ x hx; cases hx
    | cons y l ih =>
      intro hn x hx
      rw [List.map_cons, List.nodup_cons] at hn
      have hout : ∀ a, a ∉ l.map Prod.fst → scores a l = [] := by
        intro a ha
        unfold scores
        rw [List.filter_eq_nil_iff.2, List.map_nil]
        intro z hz he
        exact ha (List.mem_map.2 ⟨z, hz, by simpa using he⟩)
      rw [scores_cons]
      rcases List.mem_cons.1 hx with rfl | hx
      · rw [if_pos rfl, hout _ hn.1]
      · rw [if_neg, ih hn.2 x hx]
        intro e
        exact hn.1 (List.mem_map.2 ⟨x, hx, e.symm⟩)
  have hone : ∀ x ∈ l, fate (credit c x.1) (scores x.1 l) = some (if x.2 = 2 ^ 64 - 1 then none else (credit c x.1).map (lowered · x.2)) := by
    intro x hx
    rw [hsc l hl x hx, fate_punished _ _ _ (hc x hx)]
    rfl
  have hnp : r.2 ≠ .panicked := by
    intro h
    obtain ⟨-, a, ha⟩ := h2.1 h
    by_cases hm : a ∈ l.map Prod.fst
    · obtain ⟨x, hx, rfl⟩ := List.mem_map.1 hm
      rw [hone x hx] at ha; cases ha
    · have : scores a l = [] := by
        unfold scores
        rw [List.filter_eq_nil_iff.2, List.map_nil]
        intro z hz he
        exact hm (List.mem_map.2 ⟨z, hz, by simpa using he⟩)
      rw [this] at ha; cases ha
  have hnr : r.2 ≠ .refused := fun h => by cases h1.1 h
  obtain ⟨g1, g2, g3, -⟩ := h4 hnr hnp
  refine ⟨g1, fun x hx => ⟨g3 x hx, ?_⟩⟩
  have := g2 x.1
  rw [hone x hx] at this
  exact Option.some.inj this

/-! ### Examples -/

/-- A slash costs a delegator 40 points. -/
def exCfg : Chain.Cfg :=
  { Payout.exCfg with stk := { Payout.exCfg.stk with credit := { Payout.exCfg.stk.credit with attenuationStep := 40 } } }

theorem exCfg_fits : Fits exCfg := ⟨rfl, by decide⟩

/-- Account 7 delegates to validator 1, which is elected as one of two candidates. -/
def exBefore : List Op :=
  (Payout.exOps.take 8).map .pay ++ [.startEra 0, .startEra 6, .pay (.chain (.dele (.configure 100 1 1 [] 84))), .pay (.chain (.dele (.newEra [1, 2]))), .startEra 12]

/-- An offence of validator 1, with the delegators recorded. -/
def exOffence : Op := .offence 12 13 1 ⟨500, 500, [7]⟩ 100000000 [5]

def exState : Chain.State := (run exCfg Payout.exStart exBefore).1

def Out.stops : Out → Bool
  | .halted => true
  | _ => false

theorem stops_iff (o : Out) : o.stops = true ↔ o = .halted := by cases o <;> simp [Out.stops]

/-- Validator 1 is slashed one era after the report; account 7 then has 90 points and its delegation has ended. -/
example :
    let c := (run exCfg exState [exOffence, .startEra 18]).1
    let t := step exCfg c (.startEra 24)
    hit (due exCfg exState) = [] ∧ hit (due exCfg c) = [7] ∧ Out.stops t.2 = false ∧
    (credit c 7).map (·.credit) = some 130 ∧ c.stk.dele.delegators.get 7 = some ⟨7, [1], some 0, true⟩ ∧
    (credit t.1 7).map (·.credit) = some 90 ∧ (t.1.stk.dele.delegators.get 7).map (·.delegating) = some false ∧
    (credit t.1 3).map (·.credit) = some 40 ∧ c.w.bank.total 1 = 1000 ∧ t.1.w.bank.total 1 = 950 := by
  decide +kernel

/-- The chain stops: account 7 is unstaked by force, or loses all its credit with its delegation, before the slash. -/
theorem exHalt :
    ((run exCfg exState [exOffence, .startEra 18, .pay (.chain (.dele (.forceUnstaking true 7))), .startEra 24]).2.map fun e => e.2.2.stops) = [false, false, false, true] ∧
    ((run exCfg exState [exOffence, .startEra 18, .forceUndelegate true [(7, 2 ^ 64 - 1)], .startEra 24]).2.map fun e => e.2.2.stops) = [false, false, false, true] := by
  decide +kernel

def isOffence : Op → Bool
  | .offence .. => true
  | _ => false

theorem exRecorded (ops : List Op) (h : ∀ op ∈ ops, isOffence op = false) : Recorded exCfg Payout.exStart (exBefore ++ exOffence :: ops) := by
  intro n i j v x f rs hn
  have h13 : n = 13 := by
    rcases Nat.lt_trichotomy n 13 with hlt | heq | hgt
    · rw [List.getElem?_append_left (show n < exBefore.length from hlt)] at hn
      have hb : ∀ op ∈ exBefore, isOffence op = false := by decide
      have := hb _ (List.mem_of_getElem? hn)
      cases this
    · exact heq
    · rw [List.getElem?_append_right (show exBefore.length ≤ n from Nat.le_of_lt hgt)] at hn
      have hpos : n - exBefore.length = (n - 14) + 1 := by show n - 13 = _; omega
      rw [hpos, List.getElem?_cons_succ] at hn
      have := h _ (List.mem_of_getElem? hn)
      cases this
  subst h13
  have e : (exBefore ++ exOffence :: ops)[13]? = some exOffence := rfl
  rw [e] at hn
  cases hn
  refine .inr ⟨12, by decide, (2, 1), ?_⟩
  have : (exBefore ++ exOffence :: ops).take 12 = exBefore.take 12 := rfl
  rw [this]
  have hd : ((run exCfg Payout.exStart (exBefore.take 12)).1.stk.dele.stakers.get (2, 1)).map (fun x => (x.total, x.own, x.others)) = some (500, 500, [7]) := by decide +kernel
  obtain ⟨x, hx, he⟩ := Option.map_eq_some_iff.1 hd
  rw [hx]
  cases x
  cases he
  rfl

theorem exReasonable (ops : List Op) (h : ∀ c, ∀ op ∈ ops, Reasonable exCfg c op) :
    ∀ e ∈ (run exCfg Payout.exStart (exBefore ++ exOffence :: ops)).2, Reasonable exCfg e.1 e.2.1 := by
  have hmem : ∀ (l : List Op) (c : Chain.State), ∀ e ∈ (run exCfg c l).2, e.2.1 ∈ l := by
    intro l
    induction l with
    | nil => intro c e he; cases he
    | cons o l ih =>
      intro c e he
      rcases List.mem_cons.1 he with rfl | he
      · exact List.mem_cons_self ..
      · exact List.mem_cons_of_mem _ (ih _ e he)
  have hall : ∀ c, ∀ op ∈ exBefore ++ exOffence :: ops, Reasonable exCfg c op := by
    intro c op ho
    rcases List.mem_append.1 ho with ho | ho
    · simp only [exBefore, Payout.exOps, List.cons_append, List.take_succ_cons, List.take_zero, List.map_cons, List.map_nil, List.nil_append, List.mem_cons, List.not_mem_nil, or_false] at ho
      rcases ho with rfl | rfl | rfl | rfl | rfl | rfl | rfl | rfl | rfl | rfl | rfl | rfl | rfl <;> trivial
    · rcases List.mem_cons.1 ho with rfl | ho
      · trivial
      · exact h c op ho
  exact fun e he => hall _ _ (hmem _ _ e he)

/-- The hypothesis of `C123_era_start` and `C124_forced` is met. -/
example : ∃ ps, World.settle exState.w = exState.w ∧ Fine exCfg exState ps := by
  have hr : ∀ e ∈ (run exCfg Payout.exStart exBefore).2, Reasonable exCfg e.1 e.2.1 := by
    intro e he
    refine exReasonable [] (fun _ _ h => by cases h) e ?_
    rw [show exBefore ++ exOffence :: [] = exBefore ++ [exOffence] from rfl, run_snoc]
    exact List.mem_append_left _ he
  have h0 : Safe Payout.exStart := ⟨fun a _ d hd => (by cases hd), fun k x hk => (by cases hk), fun a ha => (by obtain ⟨e, u, he, _⟩ := ha; cases he)⟩
  obtain ⟨ps, h⟩ := (fine_run exCfg_fits ⟨good_start Payout.exStart_start Chain.exStart_start.locks ⟨_, _, rfl⟩, h0⟩ exBefore hr
    (fun n i j v x f rs hn => by
      have hb : ∀ op ∈ exBefore, isOffence op = false := by decide
      have := hb _ (List.mem_of_getElem? hn)
      cases this) (by decide)).1
  exact ⟨ps, h.good.locks, h⟩

/-- The hypotheses of `C123_no_halt_partial` are met by the history of the first example. -/
example : ∀ e ∈ (run exCfg Payout.exStart (exBefore ++ exOffence :: [.startEra 18, .startEra 24])).2, e.2.2 ≠ .halted :=
  C123_no_halt_partial exCfg exCfg_fits Payout.exStart_start Chain.exStart_start.locks ⟨_, _, rfl⟩ rfl _
    (exReasonable _ (by intro c op h; simp only [List.mem_cons, List.not_mem_nil, or_false] at h; rcases h with rfl | rfl <;> trivial)) (exRecorded _ (by decide)) (by decide)

/-- The full statement, that the chain never stops at slashes of delegators, is false. -/
theorem C123_halts : ¬ ∀ (cfg : Chain.Cfg) (_ : Fits cfg) (c : Chain.State) (_ : Start c) (_ : World.settle c.w = c.w)
    (_ : ∃ bank m, c.stk.dele = Delegation.genesis bank m) (_ : c.slash.unapplied = ∅) (ops : List Op)
    (_ : ∀ e ∈ (run cfg c ops).2, Reasonable cfg e.1 e.2.1) (_ : Recorded cfg c ops), ∀ e ∈ (run cfg c ops).2, e.2.2 ≠ .halted := by
  intro h
  have := h exCfg exCfg_fits Payout.exStart Payout.exStart_start Chain.exStart_start.locks ⟨_, _, rfl⟩ rfl
    (exBefore ++ exOffence :: [.startEra 18, .pay (.chain (.dele (.forceUnstaking true 7))), .startEra 24])
    (exReasonable _ (by intro c op h; simp only [List.mem_cons, List.not_mem_nil, or_false] at h; rcases h with rfl | rfl | rfl <;> trivial)) (exRecorded _ (by decide))
  have hany : (run exCfg Payout.exStart (exBefore ++ exOffence :: [.startEra 18, .pay (.chain (.dele (.forceUnstaking true 7))), .startEra 24])).2.any (fun e => e.2.2.stops) = true := by decide +kernel
  obtain ⟨e, he, hs⟩ := List.any_eq_true.1 hany
  exact this e he ((stops_iff _).1 hs)

/-- `C124_forced`: account 7 loses 30 of 130 points and then 20 more, and its delegation; account 3 all its credit. -/
example :
    let t := step exCfg exState (.forceUndelegate true [(7, 30), (3, 2 ^ 64 - 1), (7, 20)])
    (credit exState 7).map (·.credit) = some 130 ∧ (credit exState 3).map (·.credit) = some 40 ∧
    exState.stk.dele.delegators.get 7 = some ⟨7, [1], some 0, true⟩ ∧
    scores 7 [(7, 30), (3, 2 ^ 64 - 1), (7, 20)] = [30, 20] ∧ (credit t.1 7).map (·.credit) = some 80 ∧
    (t.1.stk.dele.delegators.get 7).map (·.delegating) = some false ∧ credit t.1 3 = none ∧
    fate (credit exState 9) (scores 9 [(7, 30), (9, 1)]) = none ∧
    (credit (step exCfg exState (.forceUndelegate true [(7, 30), (9, 1)])).1 7).map (·.credit) = some 130 ∧
    (credit (step exCfg exState (.forceUndelegate false [(7, 30)])).1 7).map (·.credit) = some 130 := by
  decide +kernel

end Verif.Penalty
