import Verif.TipsProofs
import Mathlib.Data.Nat.Pairing

/-
Properties C32, C33, C34, C67: tips.
-/

namespace Verif.Tips

/-! ### Specification: what the history says about a tip -/

/-- State of a tip, read off the history: who opened it for whom, the deposit, what every council
member has declared, and the block in which half of the council had declared for the first time (in
money: `false`, in credit: `true`). -/
structure Track where
  finder : AccId
  who : AccId
  reported : Bool
  deposit : Balance
  money : AccId → Option Nat
  credit : AccId → Option Nat
  majority : Option (Nat × Bool)

/-- A declaration; those of former members are dropped. -/
def declare (ms : List AccId) (d : AccId → Option Nat) (a : AccId) (v : Nat) : AccId → Option Nat :=
  fun x => if x ∈ ms then (if x = a then some v else d x) else none

/-- A single declaration. -/
def only (a : AccId) (v : Nat) : AccId → Option Nat := fun x => if x = a then some v else none

/-- First time at which at least half of the council has declared. -/
def reached (s : State) (old : Option (Nat × Bool)) (d : AccId → Option Nat) (kind : Bool) :
    Option (Nat × Bool) :=
  if old = none ∧ s.members.length ≤ 2 * (s.members.filterMap d).length then some (s.block, kind) else old

/-- Effect of one call on the tip with key `h`. -/
def trackStep (cfg : Cfg) (h : Nat) (t : Option Track) : State × Op × Out → Option Track
  | (_, .report f r w, .done) =>
    if key cfg r w = h then
      some ⟨f, w, true, cfg.depositBase + cfg.depositPerByte * r.length, fun _ => none, fun _ => none, none⟩
    else t
  | (_, .tipNew a r w v, .done) =>
    if key cfg r w = h then some ⟨a, w, false, 0, only a v, fun _ => none, none⟩ else t
  | (_, .creditNew a r w v, .done) =>
    if key cfg r w = h then some ⟨a, w, false, 0, fun _ => none, only a v, none⟩ else t
  | (s, .tip a h' v, .done) =>
    if h' = h then t.map fun t =>
      let d := declare s.members t.money a v
      { t with money := d, majority := reached s t.majority d false }
    else t
  | (s, .creditTip a h' v, .done) =>
    if h' = h then t.map fun t =>
      let d := declare s.members t.credit a v
      { t with credit := d, majority := reached s t.majority d true }
    else t
  | (_, .retract _ h', .done) => if h' = h then none else t
  | (_, .slash _ h', .done) => if h' = h then none else t
  | (_, .close h', .closed _ _) => if h' = h then none else t
  | (_, .closeCredit h', .credited _ _) => if h' = h then none else t
  | _ => t

/-- The tip with key `h` according to the history. -/
def track (cfg : Cfg) (h : Nat) (tr : List (State × Op × Out)) : Option Track := tr.foldl (trackStep cfg h) none

/-- The council given by the outside is a sorted list without repetition (C54). -/
def SortedCouncil (ms : List AccId) (ops : List Op) : Prop :=
  ms.Pairwise (· < ·) ∧ ∀ n b m, Op.external n b m ∈ ops → m.Pairwise (· < ·)

/-! ### Storage agrees with the history -/

/-- A stored tip agrees with the history. -/
structure Agree (cfg : Cfg) (t : OpenTip) (k : Track) : Prop where
  finder : t.finder = k.finder
  who : t.who = k.who
  reported : t.findersFee = k.reported
  deposit : t.deposit = k.deposit
  sorted : Sorted t.tips
  sortedC : Sorted t.credits
  money : ∀ x, FMap.lget t.tips x = k.money x
  credit : ∀ x, FMap.lget t.credits x = k.credit x
  closes : t.closes = k.majority.map fun p => p.1 + cfg.countdown

/-- Same for an optional tip. -/
def AgreeOpt (cfg : Cfg) : Option OpenTip → Option Track → Prop
  | none, none => True
  | some t, some k => Agree cfg t k
  | _, _ => False

theorem closing_reached {cfg : Cfg} {s : State} {c : Option Nat} {m : Option (Nat × Bool)}
    {l l0 : List (AccId × Nat)} (kind : Bool) (hc : c = m.map fun p => p.1 + cfg.countdown)
    (h0 : Sorted l0) (hl : l = retain s.members l0) (hs : s.members.Pairwise (· < ·)) :
    closing cfg s c l = (reached s m (FMap.lget l0) kind).map fun p => p.1 + cfg.countdown := by
  have hlen : l.length = (s.members.filterMap (FMap.lget l0)).length := by
    rw [← (retain_amounts h0 hs).length_eq, List.length_map, hl]
  unfold closing reached
  rw [hlen]
  cases m with
  | none =>
    subst hc
    simp only [Option.map_none, and_true, true_and]
    by_cases hh : (s.members.length + 1) / 2 ≤ (s.members.filterMap (FMap.lget l0)).length
    · rw [if_pos hh, if_pos (by omega)]; rfl
    · rw [if_neg hh, if_neg (by omega)]; rfl
  | some p =>
    subst hc
    simp

theorem filterMap_declare {ms : List AccId} (d : AccId → Option Nat) (a : AccId) (v : Nat) {l : List (AccId × Nat)}
    (h : Sorted l) (hd : ∀ x, FMap.lget l x = d x) :
    ms.filterMap (FMap.lget (upsert l a v)) = ms.filterMap (declare ms d a v) := by
  apply List.filterMap_congr
  intro x hx
  rw [lget_upsert h]
  unfold declare
  rw [if_pos hx, hd]

theorem agree_tip {cfg : Cfg} {s : State} {t : OpenTip} {k : Track} (hk : Agree cfg t k)
    (hs : s.members.Pairwise (· < ·)) (a : AccId) (v : Nat) :
    Agree cfg (insertTip cfg s t a v)
      { k with money := declare s.members k.money a v, majority := reached s k.majority (declare s.members k.money a v) false } := by
  have hu := upsert_sorted hk.sorted a v
  refine ⟨hk.finder, hk.who, hk.reported, hk.deposit, retain_sorted hu hs, hk.sortedC, ?_, hk.credit, ?_⟩
  · intro x
    simp only [insertTip]
    rw [lget_retain hu hs, lget_upsert hk.sorted, hk.money]
    rfl
  · simp only [insertTip]
    rw [closing_reached false hk.closes hu rfl hs]
    unfold reached
    rw [filterMap_declare k.money a v hk.sorted hk.money]

theorem agree_credit {cfg : Cfg} {s : State} {t : OpenTip} {k : Track} (hk : Agree cfg t k)
    (hs : s.members.Pairwise (· < ·)) (a : AccId) (v : Nat) :
    Agree cfg (insertCredit cfg s t a v)
      { k with credit := declare s.members k.credit a v, majority := reached s k.majority (declare s.members k.credit a v) true } := by
  have hu := upsert_sorted hk.sortedC a v
  refine ⟨hk.finder, hk.who, hk.reported, hk.deposit, hk.sorted, retain_sorted hu hs, hk.money, ?_, ?_⟩
  · intro x
    simp only [insertCredit]
    rw [lget_retain hu hs, lget_upsert hk.sortedC, hk.credit]
    rfl
  · simp only [insertCredit]
    rw [closing_reached true hk.closes hu rfl hs]
    unfold reached
    rw [filterMap_declare k.credit a v hk.sortedC hk.credit]

theorem takeClosed_ok {s s1 : State} {h : Nat} {t : OpenTip} (hr : takeClosed s h = .ok (t, s1)) :
    s.open_.get h = some t ∧ (∃ n, t.closes = some n ∧ n ≤ s.block) ∧
    s1 = { s with reasons := s.reasons.erase t.reason, open_ := s.open_.erase h } := by
  unfold takeClosed at hr
  split at hr
  · cases hr
  rename_i t' ht
  split at hr
  · cases hr
  rename_i n hn
  split at hr
  · cases hr
  rename_i hlt
  cases hr
  exact ⟨ht, ⟨n, hn, by omega⟩, rfl⟩

/-- Successful calls. -/
theorem step_shape (cfg : Cfg) (s : State) (op : Op) :
    (∃ e, step cfg s op = (s, .failed e)) ∨
    (∃ n b m, op = .external n b m ∧ step cfg s op = ({ s with block := s.block + n, bank := b, members := m }, .done)) ∨
    (∃ a, op = .setPot true a ∧ step cfg s op = ({ s with pot := some a }, .done)) ∨
    (∃ f r w b, op = .report f r w ∧ s.reasons.contains (cfg.hash r) = false ∧
      s.open_.contains (key cfg r w) = false ∧ r.length ≤ cfg.maxReason ∧
      s.bank.reserve f (cfg.depositBase + cfg.depositPerByte * r.length) = .ok b ∧
      step cfg s op = ({ s with bank := b, reasons := s.reasons.insert (cfg.hash r) r, open_ := s.open_.insert (key cfg r w) ⟨cfg.hash r, w, f, cfg.depositBase + cfg.depositPerByte * r.length, none, [], true, []⟩ }, .done)) ∨
    (∃ a r w v, op = .tipNew a r w v ∧ a ∈ s.members ∧ s.reasons.contains (cfg.hash r) = false ∧
      step cfg s op = ({ s with reasons := s.reasons.insert (cfg.hash r) r, open_ := s.open_.insert (key cfg r w) ⟨cfg.hash r, w, a, 0, none, [(a, v)], false, []⟩ }, .done)) ∨
    (∃ a r w v, op = .creditNew a r w v ∧ a ∈ s.members ∧ s.reasons.contains (cfg.hash r) = false ∧
      step cfg s op = ({ s with reasons := s.reasons.insert (cfg.hash r) r, open_ := s.open_.insert (key cfg r w) ⟨cfg.hash r, w, a, 0, none, [], false, [(a, v)]⟩ }, .done)) ∨
    (∃ a h v t, op = .tip a h v ∧ a ∈ s.members ∧ s.open_.get h = some t ∧
      step cfg s op = ({ s with open_ := s.open_.insert h (insertTip cfg s t a v) }, .done)) ∨
    (∃ a h v t, op = .creditTip a h v ∧ a ∈ s.members ∧ s.open_.get h = some t ∧
      step cfg s op = ({ s with open_ := s.open_.insert h (insertCredit cfg s t a v) }, .done)) ∨
    (∃ h t b o, s.open_.get h = some t ∧
      step cfg s op = ({ s with bank := b, reasons := s.reasons.erase t.reason, open_ := s.open_.erase h }, o) ∧
      ((op = .retract t.finder h ∧ o = .done ∧ b = giveBack s.bank t) ∨
       (op = .slash true h ∧ o = .done ∧
         b = if t.deposit = 0 then s.bank else (s.bank.slashReserved t.finder t.deposit).1) ∨
       (∃ v n, op = .close h ∧ o = .closed t.who v ∧ t.closes = some n ∧ n ≤ s.block ∧
         payoutTip cfg s t = .ok (b, v)) ∨
       (∃ v n, op = .closeCredit h ∧ o = .credited t.who v ∧ t.closes = some n ∧ n ≤ s.block ∧
         payoutCredit cfg s t = .ok (b, v)))) := by
  rcases step_cases cfg s op with ⟨r, hb, hs⟩ | ⟨e, hb, hs⟩
  swap
  · exact Or.inl ⟨e, hs⟩
  cases op with
  | external n b m =>
    right; left
    simp only [body] at hb
    cases hb
    exact ⟨n, b, m, rfl, hs⟩
  | setPot root a =>
    right; right; left
    simp only [body] at hb
    obtain ⟨s', hr, rfl⟩ := map_ok hb
    unfold setPot at hr
    split at hr
    · cases hr
    rename_i hroot
    cases hr
    have : root = true := by simpa using hroot
    subst this
    exact ⟨a, rfl, hs⟩
  | report f r w =>
    right; right; right; left
    simp only [body] at hb
    obtain ⟨s', hr, rfl⟩ := map_ok hb
    unfold report at hr
    split at hr
    · cases hr
    rename_i h1
    split at hr
    · cases hr
    rename_i h2
    split at hr
    · cases hr
    rename_i h3
    obtain ⟨b, hb2, rfl⟩ := map_ok hr
    exact ⟨f, r, w, b, rfl, by simpa using h2, by simpa using h3, by omega, liftBank_ok hb2, hs⟩
  | tipNew a r w v =>
    right; right; right; right; left
    simp only [body] at hb
    obtain ⟨s', hr, rfl⟩ := map_ok hb
    unfold tipNew at hr
    split at hr
    · cases hr
    rename_i h1
    split at hr
    · cases hr
    rename_i h2
    cases hr
    exact ⟨a, r, w, v, rfl, by simpa using h1, by simpa using h2, hs⟩
  | creditNew a r w v =>
    right; right; right; right; right; left
    simp only [body] at hb
    obtain ⟨s', hr, rfl⟩ := map_ok hb
    unfold creditNew at hr
    split at hr
    · cases hr
    rename_i h1
    split at hr
    · cases hr
    rename_i h2
    cases hr
    exact ⟨a, r, w, v, rfl, by simpa using h1, by simpa using h2, hs⟩
  | tip a h v =>
    right; right; right; right; right; right; left
    simp only [body] at hb
    obtain ⟨s', hr, rfl⟩ := map_ok hb
    unfold tip at hr
    split at hr
    · cases hr
    rename_i h1
    split at hr
    · cases hr
    rename_i t ht
    cases hr
    exact ⟨a, h, v, t, rfl, by simpa using h1, ht, hs⟩
  | creditTip a h v =>
    right; right; right; right; right; right; right; left
    simp only [body] at hb
    obtain ⟨s', hr, rfl⟩ := map_ok hb
    unfold creditTip at hr
    split at hr
    · cases hr
    rename_i h1
    split at hr
    · cases hr
    rename_i t ht
    cases hr
    exact ⟨a, h, v, t, rfl, by simpa using h1, ht, hs⟩
  | retract w h =>
    right; right; right; right; right; right; right; right
    simp only [body] at hb
    obtain ⟨s', hr, rfl⟩ := map_ok hb
    unfold retract at hr
    split at hr
    · cases hr
    rename_i t ht
    split at hr
    · cases hr
    rename_i hf
    cases hr
    have hf' : t.finder = w := Classical.not_not.1 hf
    exact ⟨h, t, _, _, ht, hs, Or.inl ⟨by rw [hf'], rfl, rfl⟩⟩
  | slash ok h =>
    right; right; right; right; right; right; right; right
    simp only [body] at hb
    obtain ⟨s', hr, rfl⟩ := map_ok hb
    unfold slash at hr
    split at hr
    · cases hr
    rename_i hok
    split at hr
    · cases hr
    rename_i t ht
    cases hr
    have : ok = true := by simpa using hok
    subst this
    exact ⟨h, t, _, _, ht, hs, Or.inr (Or.inl ⟨rfl, rfl, rfl⟩)⟩
  | close h =>
    right; right; right; right; right; right; right; right
    simp only [body] at hb
    obtain ⟨s', hr, rfl⟩ := map_ok hb
    unfold close at hr
    split at hr
    · cases hr
    rename_i t s1 ht
    obtain ⟨⟨b, v⟩, hp, rfl⟩ := map_ok hr
    obtain ⟨g1, ⟨n, g2, g3⟩, rfl⟩ := takeClosed_ok ht
    exact ⟨h, t, b, _, g1, hs, Or.inr (Or.inr (Or.inl ⟨v, n, rfl, rfl, g2, g3, hp⟩))⟩
  | closeCredit h =>
    right; right; right; right; right; right; right; right
    simp only [body] at hb
    obtain ⟨s', hr, rfl⟩ := map_ok hb
    unfold closeCredit at hr
    split at hr
    · cases hr
    rename_i t s1 ht
    obtain ⟨⟨b, v⟩, hp, rfl⟩ := map_ok hr
    obtain ⟨g1, ⟨n, g2, g3⟩, rfl⟩ := takeClosed_ok ht
    exact ⟨h, t, b, _, g1, hs, Or.inr (Or.inr (Or.inr ⟨v, n, rfl, rfl, g2, g3, hp⟩))⟩

theorem trackStep_failed (cfg : Cfg) (h : Nat) (k : Option Track) (s : State) (op : Op) (e : Err) :
    trackStep cfg h k (s, op, .failed e) = k := by
  cases op <;> rfl

theorem agreeOpt_insert {cfg : Cfg} {s : State} {h h' : Nat} {t : OpenTip} {k : Option Track} {k' : Track}
    (hk : AgreeOpt cfg (s.open_.get h) k) (ha : h' = h → Agree cfg t k') :
    AgreeOpt cfg ((s.open_.insert h' t).get h) (if h' = h then some k' else k) := by
  rw [FMap.get_insert]
  by_cases hh : h' = h
  · subst hh
    rw [if_pos rfl, if_pos rfl]
    exact ha rfl
  · rw [if_neg hh, if_neg (Ne.symm hh)]
    exact hk

theorem agreeOpt_erase {cfg : Cfg} {s : State} {h h' : Nat} {k : Option Track}
    (hk : AgreeOpt cfg (s.open_.get h) k) :
    AgreeOpt cfg ((s.open_.erase h').get h) (if h' = h then none else k) := by
  rw [FMap.get_erase]
  by_cases hh : h' = h
  · subst hh
    rw [if_pos rfl, if_pos rfl]
    exact True.intro
  · rw [if_neg hh, if_neg (Ne.symm hh)]
    exact hk

theorem step_agree (cfg : Cfg) {s : State} {h : Nat} {k : Option Track} (hs : s.members.Pairwise (· < ·))
    (hk : AgreeOpt cfg (s.open_.get h) k) (op : Op) :
    AgreeOpt cfg ((step cfg s op).1.open_.get h) (trackStep cfg h k (s, op, (step cfg s op).2)) := by
  rcases step_shape cfg s op with ⟨e, hst⟩ | ⟨n, b, m, rfl, hst⟩ | ⟨a, rfl, hst⟩ |
    ⟨f, r, w, b, rfl, _, _, _, _, hst⟩ | ⟨a, r, w, v, rfl, _, _, hst⟩ | ⟨a, r, w, v, rfl, _, _, hst⟩ |
    ⟨a, h', v, t, rfl, _, ht, hst⟩ | ⟨a, h', v, t, rfl, _, ht, hst⟩ | ⟨h', t, b, o, ht, hst, hop⟩
  · rw [hst, trackStep_failed]; exact hk
  · rw [hst]; exact hk
  · rw [hst]; exact hk
  · rw [hst]
    exact agreeOpt_insert hk fun _ => ⟨rfl, rfl, rfl, rfl, List.Pairwise.nil, List.Pairwise.nil, fun _ => rfl,
      fun _ => rfl, rfl⟩
  · rw [hst]
    refine agreeOpt_insert hk fun _ => ⟨rfl, rfl, rfl, rfl, List.pairwise_singleton _ _, List.Pairwise.nil, ?_,
      fun _ => rfl, rfl⟩
    intro x
    simp only [FMap.lget, only]
    by_cases hx : x = a
    · rw [if_pos hx, if_pos hx.symm]
    · rw [if_neg hx, if_neg (Ne.symm hx)]
  · rw [hst]
    refine agreeOpt_insert hk fun _ => ⟨rfl, rfl, rfl, rfl, List.Pairwise.nil, List.pairwise_singleton _ _,
      fun _ => rfl, ?_, rfl⟩
    intro x
    simp only [FMap.lget, only]
    by_cases hx : x = a
    · rw [if_pos hx, if_pos hx.symm]
    · rw [if_neg hx, if_neg (Ne.symm hx)]
  · rw [hst]
    simp only [trackStep]
    by_cases hh : h' = h
    · subst hh
      rw [ht] at hk
      cases k with
      | none => exact hk.elim
      | some k =>
        rw [if_pos rfl, FMap.get_insert_self]
        exact agree_tip hk hs a v
    · rw [if_neg hh, FMap.get_insert_ne _ _ (Ne.symm hh)]
      exact hk
  · rw [hst]
    simp only [trackStep]
    by_cases hh : h' = h
    · subst hh
      rw [ht] at hk
      cases k with
      | none => exact hk.elim
      | some k =>
        rw [if_pos rfl, FMap.get_insert_self]
        exact agree_credit hk hs a v
    · rw [if_neg hh, FMap.get_insert_ne _ _ (Ne.symm hh)]
      exact hk
  · rw [hst]
    rcases hop with ⟨rfl, rfl, _⟩ | ⟨rfl, rfl, _⟩ | ⟨v, n, rfl, rfl, _⟩ | ⟨v, n, rfl, rfl, _⟩ <;>
      exact agreeOpt_erase hk

theorem step_members (cfg : Cfg) {s : State} (hs : s.members.Pairwise (· < ·)) {op : Op}
    (hop : ∀ n b m, op = .external n b m → m.Pairwise (· < ·)) :
    (step cfg s op).1.members.Pairwise (· < ·) := by
  rcases step_shape cfg s op with ⟨e, hst⟩ | ⟨n, b, m, rfl, hst⟩ | ⟨a, rfl, hst⟩ |
    ⟨f, r, w, b, rfl, _, _, _, _, hst⟩ | ⟨a, r, w, v, rfl, _, _, hst⟩ | ⟨a, r, w, v, rfl, _, _, hst⟩ |
    ⟨a, h', v, t, rfl, _, ht, hst⟩ | ⟨a, h', v, t, rfl, _, ht, hst⟩ | ⟨h', t, b, o, ht, hst, _⟩ <;>
    rw [hst] <;> first | exact hs | exact hop _ _ _ rfl

theorem run_agree (cfg : Cfg) (h : Nat) (ops : List Op) : ∀ (s : State) (k : Option Track),
    SortedCouncil s.members ops → AgreeOpt cfg (s.open_.get h) k →
    AgreeOpt cfg ((run cfg s ops).1.open_.get h) ((run cfg s ops).2.foldl (trackStep cfg h) k) ∧
    (run cfg s ops).1.members.Pairwise (· < ·) := by
  induction ops with
  | nil => intro s k hs hk; exact ⟨hk, hs.1⟩
  | cons op ops ih =>
    intro s k hs hk
    exact ih _ _ ⟨step_members cfg hs.1 fun n b m e => hs.2 n b m (by rw [e]; exact List.mem_cons_self),
      fun n b m hm => hs.2 n b m (List.mem_cons_of_mem _ hm)⟩ (step_agree cfg hs.1 hk op)

/-- The tip stored under `h` at the end of a history. -/
theorem stored_agrees (cfg : Cfg) (bank : Bank) (ms : List AccId) (ops : List Op) (hs : SortedCouncil ms ops)
    (h : Nat) : AgreeOpt cfg ((run cfg (genesis bank ms) ops).1.open_.get h)
      (track cfg h (run cfg (genesis bank ms) ops).2) ∧
      (run cfg (genesis bank ms) ops).1.members.Pairwise (· < ·) :=
  run_agree cfg h ops (genesis bank ms) none hs True.intro

theorem agreeOpt_some {cfg : Cfg} {t : OpenTip} {k : Option Track} (h : AgreeOpt cfg (some t) k) :
    ∃ k', k = some k' ∧ Agree cfg t k' := by
  cases k with
  | none => exact h.elim
  | some k => exact ⟨k, rfl, h⟩

/-! ### Deposits -/

/-- What is on deposit for the open tips of `a`. -/
def depositsOf (s : State) (a : AccId) : Balance :=
  s.open_.sum fun _ t => if t.finder = a then t.deposit else 0

/-- Stored under the right key, one tip per reason. -/
structure KInv (cfg : Cfg) (s : State) : Prop where
  key : ∀ h t, s.open_.get h = some t → h = cfg.hashOf t.reason t.who
  reason : ∀ h t, s.open_.get h = some t → s.reasons.contains t.reason = true
  one : ∀ h h' t t', s.open_.get h = some t → s.open_.get h' = some t' → t.reason = t'.reason → h = h'

theorem KInv.fresh {cfg : Cfg} (hinj : ∀ a b c d, cfg.hashOf a b = cfg.hashOf c d → a = c ∧ b = d) {s : State}
    (h : KInv cfg s) {r : List Nat} (hr : s.reasons.contains (cfg.hash r) = false) (w : AccId) :
    s.open_.get (Tips.key cfg r w) = none := by
  cases hg : s.open_.get (Tips.key cfg r w) with
  | none => rfl
  | some t =>
    have h1 := h.key _ _ hg
    have h2 := h.reason _ _ hg
    obtain ⟨h3, _⟩ := hinj _ _ _ _ h1
    rw [← h3, hr] at h2
    cases h2

theorem KInv.insertNew {cfg : Cfg} (hinj : ∀ a b c d, cfg.hashOf a b = cfg.hashOf c d → a = c ∧ b = d)
    {s s' : State} (h : KInv cfg s) {r : List Nat} (hr : s.reasons.contains (cfg.hash r) = false) {w : AccId}
    {t : OpenTip} (ht : t.reason = cfg.hash r) (hw : t.who = w)
    (h1 : s'.reasons = s.reasons.insert (cfg.hash r) r) (h2 : s'.open_ = s.open_.insert (Tips.key cfg r w) t) :
    KInv cfg s' := by
  refine ⟨?_, ?_, ?_⟩
  · intro h' t' hg
    rw [h2, FMap.get_insert] at hg
    split at hg
    · rename_i e; cases hg; rw [e, ht, hw]; rfl
    · exact h.key _ _ hg
  · intro h' t' hg
    rw [h2, FMap.get_insert] at hg
    rw [h1]
    unfold FMap.contains
    rw [FMap.get_insert]
    split
    · rfl
    · split at hg
      · rename_i hne _; cases hg; exact absurd ht hne
      · have := h.reason _ _ hg; unfold FMap.contains at this; exact this
  · intro a b ta tb ha hb he
    rw [h2, FMap.get_insert] at ha hb
    split at ha
    · rename_i ea
      split at hb
      · rename_i eb; rw [ea, eb]
      · cases ha
        have := h.reason _ _ hb
        rw [← he, ht, hr] at this
        cases this
    · split at hb
      · cases hb
        have := h.reason _ _ ha
        rw [he, ht, hr] at this
        cases this
      · exact h.one _ _ _ _ ha hb he

theorem KInv.insertOld {cfg : Cfg} {s s' : State} (h : KInv cfg s) {k : Nat} {t t' : OpenTip}
    (hg : s.open_.get k = some t) (hr : t'.reason = t.reason) (hw : t'.who = t.who)
    (h1 : s'.reasons = s.reasons) (h2 : s'.open_ = s.open_.insert k t') : KInv cfg s' := by
  refine ⟨?_, ?_, ?_⟩
  · intro a ta ha
    rw [h2, FMap.get_insert] at ha
    split at ha
    · rename_i e; cases ha; rw [e, hr, hw]; exact h.key _ _ hg
    · exact h.key _ _ ha
  · intro a ta ha
    rw [h2, FMap.get_insert] at ha
    rw [h1]
    split at ha
    · cases ha; rw [hr]; exact h.reason _ _ hg
    · exact h.reason _ _ ha
  · intro a b ta tb ha hb he
    rw [h2, FMap.get_insert] at ha hb
    split at ha
    · rename_i ea
      cases ha
      split at hb
      · rename_i eb; rw [ea, eb]
      · rw [ea]; exact h.one _ _ _ _ hg hb (by rw [← hr]; exact he)
    · split at hb
      · rename_i eb; cases hb; rw [eb]; exact h.one _ _ _ _ ha hg (by rw [← hr]; exact he)
      · exact h.one _ _ _ _ ha hb he

theorem KInv.erase {cfg : Cfg} {s s' : State} (h : KInv cfg s) {k : Nat} {t : OpenTip}
    (hg : s.open_.get k = some t) (h1 : s'.reasons = s.reasons.erase t.reason)
    (h2 : s'.open_ = s.open_.erase k) : KInv cfg s' := by
  have hget : ∀ a ta, s'.open_.get a = some ta → a ≠ k ∧ s.open_.get a = some ta := by
    intro a ta ha
    rw [h2, FMap.get_erase] at ha
    split at ha
    · cases ha
    · rename_i hne; exact ⟨hne, ha⟩
  refine ⟨fun a ta ha => h.key _ _ (hget a ta ha).2, ?_, ?_⟩
  · intro a ta ha
    obtain ⟨g1, g2⟩ := hget a ta ha
    have hne : ta.reason ≠ t.reason := fun he => g1 (h.one _ _ _ _ g2 hg he)
    have := h.reason _ _ g2
    unfold FMap.contains at this ⊢
    rw [h1, FMap.get_erase_ne _ hne]
    exact this
  · intro a b ta tb ha hb he
    exact h.one _ _ _ _ (hget a ta ha).2 (hget b tb hb).2 he

theorem step_kinv {cfg : Cfg} (hinj : ∀ a b c d, cfg.hashOf a b = cfg.hashOf c d → a = c ∧ b = d) {s : State}
    (h : KInv cfg s) (op : Op) : KInv cfg (step cfg s op).1 := by
  rcases step_shape cfg s op with ⟨e, hst⟩ | ⟨n, b, m, rfl, hst⟩ | ⟨a, rfl, hst⟩ |
    ⟨f, r, w, b, rfl, hr, _, _, _, hst⟩ | ⟨a, r, w, v, rfl, _, hr, hst⟩ | ⟨a, r, w, v, rfl, _, hr, hst⟩ |
    ⟨a, h', v, t, rfl, _, ht, hst⟩ | ⟨a, h', v, t, rfl, _, ht, hst⟩ | ⟨h', t, b, o, ht, hst, _⟩ <;> rw [hst]
  · exact h
  · exact ⟨h.key, h.reason, h.one⟩
  · exact ⟨h.key, h.reason, h.one⟩
  · exact h.insertNew hinj (w := w) (t := ⟨cfg.hash r, w, f, cfg.depositBase + cfg.depositPerByte * r.length, none, [], true, []⟩) hr rfl rfl rfl rfl
  · exact h.insertNew hinj (w := w) (t := ⟨cfg.hash r, w, a, 0, none, [(a, v)], false, []⟩) hr rfl rfl rfl rfl
  · exact h.insertNew hinj (w := w) (t := ⟨cfg.hash r, w, a, 0, none, [], false, [(a, v)]⟩) hr rfl rfl rfl rfl
  · exact h.insertOld (t' := insertTip cfg s t a v) ht rfl rfl rfl rfl
  · exact h.insertOld (t' := insertCredit cfg s t a v) ht rfl rfl rfl rfl
  · exact h.erase ht rfl rfl

/-- Effect of a best-effort transfer between different accounts. -/
theorem attempt_spec (b : Bank) {src dst : AccId} (v : Balance) (hne : src ≠ dst) :
    ∃ p, (p = 0 ∨ p = v) ∧ (attempt b src dst v).free src + p = b.free src ∧
      (attempt b src dst v).free dst = b.free dst + p ∧
      (∀ x, (attempt b src dst v).reserved x = b.reserved x) ∧
      (∀ x, x ≠ src → x ≠ dst → (attempt b src dst v).acct x = b.acct x) ∧
      (attempt b src dst v).ed = b.ed ∧ (attempt b src dst v).frozen = b.frozen := by
  unfold attempt
  cases h : b.transfer src dst v true with
  | error e => exact ⟨0, Or.inl rfl, rfl, rfl, fun _ => rfl, fun _ _ _ => rfl, rfl, rfl⟩
  | ok b' =>
    obtain ⟨h1, h2, h3, h4, h5, _, h7, h8⟩ := Bank.transfer_exact h hne
    refine ⟨v, Or.inr rfl, h1, h2, ?_, h5, h7, h8⟩
    intro x
    by_cases hx : x = src
    · rw [hx]; exact h3
    · by_cases hx2 : x = dst
      · rw [hx2]; exact h4
      · exact Bank.reserved_of_acct (h5 x hx hx2)

theorem attempt_self (b : Bank) (a : AccId) (v : Balance) : attempt b a a v = b := by
  unfold attempt
  cases h : b.transfer a a v true with
  | error e => rfl
  | ok b' => exact Bank.transfer_self h

theorem attempt_reserved (b : Bank) (src dst : AccId) (v : Balance) (x : AccId) :
    (attempt b src dst v).reserved x = b.reserved x := by
  by_cases h : src = dst
  · rw [h, attempt_self]
  · obtain ⟨p, _, _, _, h4, _⟩ := attempt_spec b v h
    exact h4 x

theorem giveBack_reserved {b : Bank} {t : OpenTip} (h : t.deposit ≤ b.reserved t.finder) :
    (giveBack b t).reserved t.finder + t.deposit = b.reserved t.finder ∧
    ∀ x, x ≠ t.finder → (giveBack b t).acct x = b.acct x := by
  unfold giveBack
  split
  · rename_i h0; rw [h0]; exact ⟨rfl, fun _ _ => rfl⟩
  · exact Bank.unreserve_reserved h

theorem giveBack_free {b : Bank} {t : OpenTip} (h : t.deposit ≤ b.reserved t.finder)
    (hed : b.ed ≤ b.free t.finder + t.deposit) :
    (giveBack b t).free t.finder = b.free t.finder + t.deposit := by
  unfold giveBack
  split
  · rename_i h0; rw [h0]; rfl
  · exact Bank.unreserve_free h hed

theorem giveBack_ed (b : Bank) (t : OpenTip) : (giveBack b t).ed = b.ed ∧ (giveBack b t).frozen = b.frozen := by
  unfold giveBack
  split
  · exact ⟨rfl, rfl⟩
  · unfold Bank.unreserve
    split
    · exact ⟨rfl, rfl⟩
    · exact ⟨by simp, by simp⟩

/-- Every deposit is covered by the finder's reserved balance. -/
def Backed (s : State) : Prop := ∀ a, depositsOf s a ≤ s.bank.reserved a

theorem deposit_le {s : State} {h : Nat} {t : OpenTip} (ht : s.open_.get h = some t) :
    t.deposit ≤ depositsOf s t.finder := by
  have := FMap.at?_le_sum s.open_ h fun _ x => if x.finder = t.finder then x.deposit else 0
  rw [FMap.at?_some ht, if_pos rfl] at this
  exact this

theorem payout_reserved {cfg : Cfg} {s : State} {t : OpenTip} {b : Bank} {v : Nat}
    (h : payoutTip cfg s t = .ok (b, v) ∨ payoutCredit cfg s t = .ok (b, v)) (x : AccId) :
    b.reserved x = (giveBack s.bank t).reserved x := by
  rcases h with h | h
  · unfold payoutTip at h
    split at h
    · cases h
    · cases h
      rw [attempt_reserved, attempt_reserved]
  · unfold payoutCredit at h
    split at h
    · cases h
    · cases h; rfl

/-- A call changes the reserved balances exactly by the deposits. -/
theorem step_reserved {cfg : Cfg} (hinj : ∀ a b c d, cfg.hashOf a b = cfg.hashOf c d → a = c ∧ b = d) {s : State}
    (hk : KInv cfg s) (hb : Backed s) {op : Op} (hop : ∀ n b m, op ≠ .external n b m) (x : AccId) :
    (step cfg s op).1.bank.reserved x + depositsOf s x = s.bank.reserved x + depositsOf (step cfg s op).1 x := by
  have hins : ∀ (k : Nat) (t : OpenTip), s.open_.get k = none →
      (s.open_.insert k t).sum (fun _ t => if t.finder = x then t.deposit else 0) =
        depositsOf s x + (if t.finder = x then t.deposit else 0) := by
    intro k t hg
    have := FMap.sum_insert s.open_ k t fun _ t => if t.finder = x then t.deposit else 0
    rw [FMap.at?_none hg] at this
    exact this
  have hupd : ∀ (k : Nat) (t t' : OpenTip), s.open_.get k = some t → t'.finder = t.finder → t'.deposit = t.deposit →
      (s.open_.insert k t').sum (fun _ t => if t.finder = x then t.deposit else 0) = depositsOf s x := by
    intro k t t' hg h1 h2
    have := FMap.sum_insert s.open_ k t' fun _ t => if t.finder = x then t.deposit else 0
    rw [FMap.at?_some hg, h1, h2] at this
    unfold depositsOf
    omega
  have hdel : ∀ (k : Nat) (t : OpenTip), s.open_.get k = some t →
      (s.open_.erase k).sum (fun _ t => if t.finder = x then t.deposit else 0) +
        (if t.finder = x then t.deposit else 0) = depositsOf s x := by
    intro k t hg
    have := FMap.sum_erase s.open_ k fun _ t => if t.finder = x then t.deposit else 0
    rw [FMap.at?_some hg] at this
    exact this
  rcases step_shape cfg s op with ⟨e, hst⟩ | ⟨n, b, m, rfl, hst⟩ | ⟨a, rfl, hst⟩ |
    ⟨f, r, w, b, rfl, hr, hc, _, hres, hst⟩ | ⟨a, r, w, v, rfl, _, hr, hst⟩ | ⟨a, r, w, v, rfl, _, hr, hst⟩ |
    ⟨a, h', v, t, rfl, _, ht, hst⟩ | ⟨a, h', v, t, rfl, _, ht, hst⟩ | ⟨h', t, b, o, ht, hst, hcase⟩
  · rw [hst]
  · exact absurd rfl (hop n b m)
  · rw [hst]; rfl
  · rw [hst]
    have h1 := hins _ ⟨cfg.hash r, w, f, cfg.depositBase + cfg.depositPerByte * r.length, none, [], true, []⟩
      (hk.fresh hinj hr w)
    obtain ⟨h2, _, h3⟩ := Bank.reserve_exact hres
    show b.reserved x + _ = _ + FMap.sum _ _
    rw [h1]
    simp only
    by_cases hx : f = x
    · subst hx; rw [if_pos rfl, h2]; omega
    · rw [if_neg hx, Bank.reserved_of_acct (h3 x (Ne.symm hx))]; omega
  · rw [hst]
    have h1 := hins _ ⟨cfg.hash r, w, a, 0, none, [(a, v)], false, []⟩ (hk.fresh hinj hr w)
    show s.bank.reserved x + _ = _ + FMap.sum _ _
    rw [h1]
    simp
  · rw [hst]
    have h1 := hins _ ⟨cfg.hash r, w, a, 0, none, [], false, [(a, v)]⟩ (hk.fresh hinj hr w)
    show s.bank.reserved x + _ = _ + FMap.sum _ _
    rw [h1]
    simp
  · rw [hst]
    show s.bank.reserved x + _ = _ + FMap.sum _ _
    rw [hupd h' t (insertTip cfg s t a v) ht rfl rfl]
  · rw [hst]
    show s.bank.reserved x + _ = _ + FMap.sum _ _
    rw [hupd h' t (insertCredit cfg s t a v) ht rfl rfl]
  · rw [hst]
    show b.reserved x + _ = _ + (s.open_.erase h').sum (fun _ t => if t.finder = x then t.deposit else 0)
    have h1 := hdel h' t ht
    have hle : t.deposit ≤ s.bank.reserved t.finder := Nat.le_trans (deposit_le ht) (hb t.finder)
    have hres : b.reserved x + (if t.finder = x then t.deposit else 0) = s.bank.reserved x := by
      have hgb : (giveBack s.bank t).reserved x + (if t.finder = x then t.deposit else 0) = s.bank.reserved x := by
        obtain ⟨g1, g2⟩ := giveBack_reserved hle
        by_cases hx : t.finder = x
        · rw [if_pos hx, ← hx]; exact g1
        · rw [if_neg hx, Bank.reserved_of_acct (g2 x (Ne.symm hx))]; omega
      rcases hcase with ⟨_, _, rfl⟩ | ⟨_, _, rfl⟩ | ⟨v, n, _, _, _, _, hp⟩ | ⟨v, n, _, _, _, _, hp⟩
      · exact hgb
      · split
        · rename_i h0; rw [h0]; split <;> rfl
        · obtain ⟨g1, _, _, g2⟩ := Bank.slashReserved_exact hle
          by_cases hx : t.finder = x
          · rw [if_pos hx, ← hx]; exact g1
          · rw [if_neg hx, Bank.reserved_of_acct (g2 x (Ne.symm hx))]; omega
      · rw [payout_reserved (Or.inl hp)]; exact hgb
      · rw [payout_reserved (Or.inr hp)]; exact hgb
    omega

/-- Calls of other pallets never take reserved money that is on deposit for a tip. -/
def OutsideRespectsDeposits (tr : List (State × Op × Out)) : Prop :=
  ∀ s n b m o, (s, Op.external n b m, o) ∈ tr → ∀ a, depositsOf s a ≤ b.reserved a

/-- What tip calls have added to the reserved balance of `a`. -/
def lockedByTips (cfg : Cfg) (a : AccId) : List (State × Op × Out) → Int
  | [] => 0
  | (_, .external _ _ _, _) :: tr => lockedByTips cfg a tr
  | (s, op, _) :: tr => ((step cfg s op).1.bank.reserved a - s.bank.reserved a : Int) + lockedByTips cfg a tr

theorem lockedByTips_cons (cfg : Cfg) (a : AccId) {op : Op} (hop : ∀ n b m, op ≠ .external n b m) (s : State)
    (o : Out) (tr : List (State × Op × Out)) :
    lockedByTips cfg a ((s, op, o) :: tr) =
      ((step cfg s op).1.bank.reserved a - s.bank.reserved a : Int) + lockedByTips cfg a tr := by
  cases op <;> first | rfl | exact absurd rfl (hop _ _ _)

theorem run_deposits {cfg : Cfg} (hinj : ∀ a b c d, cfg.hashOf a b = cfg.hashOf c d → a = c ∧ b = d)
    (ops : List Op) : ∀ s, KInv cfg s → Backed s → OutsideRespectsDeposits (run cfg s ops).2 →
    KInv cfg (run cfg s ops).1 ∧ Backed (run cfg s ops).1 ∧
    ∀ a, (depositsOf s a : Int) + lockedByTips cfg a (run cfg s ops).2 = depositsOf (run cfg s ops).1 a := by
  induction ops with
  | nil => intro s hk hb _; exact ⟨hk, hb, fun a => by simp [run, lockedByTips]⟩
  | cons op ops ih =>
    intro s hk hb ho
    have hk' := step_kinv hinj hk op
    have ho' : OutsideRespectsDeposits (run cfg (step cfg s op).1 ops).2 :=
      fun s n b m o hm => ho s n b m o (List.mem_cons_of_mem _ hm)
    by_cases hop : ∃ n b m, op = .external n b m
    · obtain ⟨n, b, m, rfl⟩ := hop
      have hb' : Backed (step cfg s (.external n b m)).1 := fun a => ho s n b m .done List.mem_cons_self a
      obtain ⟨i1, i2, i3⟩ := ih _ hk' hb' ho'
      exact ⟨i1, i2, i3⟩
    · have hop : ∀ n b m, op ≠ .external n b m := fun n b m e => hop ⟨n, b, m, e⟩
      have hres := step_reserved hinj hk hb hop
      have hb' : Backed (step cfg s op).1 := fun a => by
        have := hres a
        have := hb a
        omega
      obtain ⟨i1, i2, i3⟩ := ih _ hk' hb' ho'
      refine ⟨i1, i2, fun a => ?_⟩
      have h1 := i3 a
      have h2 := hres a
      show _ + lockedByTips cfg a ((s, op, (step cfg s op).2) :: _) = _
      rw [lockedByTips_cons cfg a hop]
      simp only [run]
      omega

theorem genesis_kinv (cfg : Cfg) (bank : Bank) (ms : List AccId) : KInv cfg (genesis bank ms) :=
  ⟨(fun h t hg => by simp [genesis] at hg), (fun h t hg => by simp [genesis] at hg),
    fun h h' t t' hg => by simp [genesis] at hg⟩

theorem genesis_backed (bank : Bank) (ms : List AccId) : Backed (genesis bank ms) :=
  fun _ => Nat.zero_le _

/-! ### C33 -/

/-- C33. At all times the deposits of the open tips of an account are covered by its reserved balance,
and they are exactly what the calls of this pallet have added to it, for every history (provided other
pallets do not take reserved money on deposit here, and different tips have different keys). -/
theorem C33_deposits_reserved (cfg : Cfg) (hinj : ∀ a b c d, cfg.hashOf a b = cfg.hashOf c d → a = c ∧ b = d)
    (bank : Bank) (ms : List AccId) (ops : List Op)
    (ho : OutsideRespectsDeposits (run cfg (genesis bank ms) ops).2) (a : AccId) :
    depositsOf (run cfg (genesis bank ms) ops).1 a ≤ (run cfg (genesis bank ms) ops).1.bank.reserved a ∧
    lockedByTips cfg a (run cfg (genesis bank ms) ops).2 = depositsOf (run cfg (genesis bank ms) ops).1 a := by
  obtain ⟨_, h2, h3⟩ := run_deposits hinj ops _ (genesis_kinv cfg bank ms) (genesis_backed bank ms) ho
  refine ⟨h2 a, ?_⟩
  have := h3 a
  have h0 : depositsOf (genesis bank ms) a = 0 := rfl
  rw [h0] at this
  omega

/-- C33. Reporting takes exactly the deposit from the free to the reserved balance of the finder and
opens a tip with that deposit; no other account changes. -/
theorem C33_report (cfg : Cfg) (s : State) (f : AccId) (r : List Nat) (w : AccId)
    (h : (step cfg s (.report f r w)).2 = .done) :
    let s' := (step cfg s (.report f r w)).1
    let d := cfg.depositBase + cfg.depositPerByte * r.length
    s'.bank.reserved f = s.bank.reserved f + d ∧ s'.bank.free f + d = s.bank.free f ∧
    (∀ x, x ≠ f → s'.bank.acct x = s.bank.acct x) ∧ s.open_.get (key cfg r w) = none ∧
    (∃ t, s'.open_.get (key cfg r w) = some t ∧ t.finder = f ∧ t.deposit = d) ∧
    (∀ k, k ≠ key cfg r w → s'.open_.get k = s.open_.get k) := by
  intro s' d
  rcases step_shape cfg s (.report f r w) with ⟨e, hst⟩ | ⟨n, b, m, hop, hst⟩ | ⟨a, hop, hst⟩ |
    ⟨f', r', w', b, hop, hr, hc, _, hres, hst⟩ | ⟨a, r, w, v, hop, _⟩ | ⟨a, r, w, v, hop, _⟩ |
    ⟨a, h', v, t, hop, _⟩ | ⟨a, h', v, t, hop, _⟩ | ⟨h', t, b, o, ht, hst, hcase⟩
  · rw [hst] at h; cases h
  · cases hop
  · cases hop
  · cases hop
    have e : s' = _ := congrArg Prod.fst hst
    rw [e]
    obtain ⟨h1, h2, h3⟩ := Bank.reserve_exact hres
    refine ⟨h1, h2, h3, ?_, ⟨_, FMap.get_insert_self _ _ _, rfl, rfl⟩, fun k hk => FMap.get_insert_ne _ _ hk⟩
    simpa [FMap.contains] using hc
  · cases hop
  · cases hop
  · cases hop
  · cases hop
  · rcases hcase with ⟨hop, _⟩ | ⟨hop, _⟩ | ⟨v, n, hop, _⟩ | ⟨v, n, hop, _⟩ <;> cases hop

/-- C33. A deposit is returned exactly once: retracting, and only by the finder, moves it back to the
free balance and removes the tip; no other account changes. -/
theorem C33_retract (cfg : Cfg) (s : State) (hb : Backed s) (a : AccId) (h : Nat) (t : OpenTip)
    (ht : s.open_.get h = some t) (hok : (step cfg s (.retract a h)).2 = .done) :
    let s' := (step cfg s (.retract a h)).1
    a = t.finder ∧ s'.bank.reserved a + t.deposit = s.bank.reserved a ∧
    (s.bank.ed ≤ s.bank.free a + t.deposit → s'.bank.free a = s.bank.free a + t.deposit) ∧
    (∀ x, x ≠ a → s'.bank.acct x = s.bank.acct x) ∧ s'.open_.get h = none := by
  intro s'
  have hle : t.deposit ≤ s.bank.reserved t.finder := Nat.le_trans (deposit_le ht) (hb t.finder)
  rcases step_shape cfg s (.retract a h) with ⟨e, hst⟩ | ⟨n, b, m, hop, hst⟩ | ⟨a, hop, hst⟩ |
    ⟨f', r', w', b, hop, _⟩ | ⟨a, r, w, v, hop, _⟩ | ⟨a, r, w, v, hop, _⟩ |
    ⟨a, h', v, t, hop, _⟩ | ⟨a, h', v, t, hop, _⟩ | ⟨h', t', b, o, ht', hst, hcase⟩
  · rw [hst] at hok; cases hok
  · cases hop
  · cases hop
  · cases hop
  · cases hop
  · cases hop
  · cases hop
  · cases hop
  · have e : s' = _ := congrArg Prod.fst hst
    rw [e]
    rcases hcase with ⟨hop, _, hbk⟩ | ⟨hop, _⟩ | ⟨v, n, hop, _⟩ | ⟨v, n, hop, _⟩
    · cases hop
      rw [ht] at ht'
      cases ht'
      obtain ⟨g1, g2⟩ := giveBack_reserved hle
      simp only [hbk]
      exact ⟨trivial, g1, giveBack_free hle, g2, FMap.get_erase_self _ _⟩
    · cases hop
    · cases hop
    · cases hop

/-- C33. Slashing a tip burns exactly the deposit of the finder. -/
theorem C33_slash (cfg : Cfg) (s : State) (hb : Backed s) (ok : Bool) (h : Nat) (t : OpenTip)
    (ht : s.open_.get h = some t) (hok : (step cfg s (.slash ok h)).2 = .done) :
    let s' := (step cfg s (.slash ok h)).1
    ok = true ∧ s'.bank.reserved t.finder + t.deposit = s.bank.reserved t.finder ∧
    (s.bank.ed ≤ s.bank.free t.finder → s'.bank.free t.finder = s.bank.free t.finder) ∧
    (∀ x, x ≠ t.finder → s'.bank.acct x = s.bank.acct x) ∧ s'.open_.get h = none := by
  intro s'
  have hle : t.deposit ≤ s.bank.reserved t.finder := Nat.le_trans (deposit_le ht) (hb t.finder)
  rcases step_shape cfg s (.slash ok h) with ⟨e, hst⟩ | ⟨n, b, m, hop, hst⟩ | ⟨a, hop, hst⟩ |
    ⟨f', r', w', b, hop, _⟩ | ⟨a, r, w, v, hop, _⟩ | ⟨a, r, w, v, hop, _⟩ |
    ⟨a, h', v, t, hop, _⟩ | ⟨a, h', v, t, hop, _⟩ | ⟨h', t', b, o, ht', hst, hcase⟩
  · rw [hst] at hok; cases hok
  · cases hop
  · cases hop
  · cases hop
  · cases hop
  · cases hop
  · cases hop
  · cases hop
  · have e : s' = _ := congrArg Prod.fst hst
    rw [e]
    rcases hcase with ⟨hop, _⟩ | ⟨hop, _, hbk⟩ | ⟨v, n, hop, _⟩ | ⟨v, n, hop, _⟩
    · cases hop
    · cases hop
      rw [ht] at ht'
      cases ht'
      simp only [hbk]
      split
      · rename_i h0
        rw [h0]
        exact ⟨trivial, rfl, fun _ => rfl, fun _ _ => rfl, FMap.get_erase_self _ _⟩
      · obtain ⟨g1, g2, _, g3⟩ := Bank.slashReserved_exact hle
        exact ⟨trivial, g1, g2, g3, FMap.get_erase_self _ _⟩
    · cases hop
    · cases hop

/-! ### C32, C34, C67 -/

/-- Shape of a successful closing. -/
theorem close_shape {cfg : Cfg} {s : State} {h : Nat} {who : AccId} {v : Nat}
    (hc : (step cfg s (.close h)).2 = .closed who v) :
    ∃ t n b, s.open_.get h = some t ∧ t.who = who ∧ t.closes = some n ∧ n ≤ s.block ∧
      payoutTip cfg s t = .ok (b, v) ∧ (step cfg s (.close h)).1.bank = b ∧
      (step cfg s (.close h)).1.open_.get h = none := by
  rcases step_shape cfg s (.close h) with ⟨e, hst⟩ | ⟨n, b, m, hop, hst⟩ | ⟨a, hop, hst⟩ |
    ⟨f', r', w', b, hop, _⟩ | ⟨a, r, w, v, hop, _⟩ | ⟨a, r, w, v, hop, _⟩ |
    ⟨a, h', v, t, hop, _⟩ | ⟨a, h', v, t, hop, _⟩ | ⟨h', t', b, o, ht', hst, hcase⟩
  · rw [hst] at hc; cases hc
  · cases hop
  · cases hop
  · cases hop
  · cases hop
  · cases hop
  · cases hop
  · cases hop
  · rcases hcase with ⟨hop, _⟩ | ⟨hop, _, hbk⟩ | ⟨v', n, hop, ho, g1, g2, g3⟩ | ⟨v, n, hop, _⟩
    · cases hop
    · cases hop
    · cases hop
      rw [hst, ho] at hc
      cases hc
      exact ⟨t', n, b, ht', rfl, g1, g2, g3, by rw [hst], by rw [hst]; exact FMap.get_erase_self _ _⟩
    · cases hop

theorem closeCredit_shape {cfg : Cfg} {s : State} {h : Nat} {who : AccId} {v : Nat}
    (hc : (step cfg s (.closeCredit h)).2 = .credited who v) :
    ∃ t n b, s.open_.get h = some t ∧ t.who = who ∧ t.closes = some n ∧ n ≤ s.block ∧
      payoutCredit cfg s t = .ok (b, v) ∧ (step cfg s (.closeCredit h)).1.bank = b ∧
      (step cfg s (.closeCredit h)).1.open_.get h = none := by
  rcases step_shape cfg s (.closeCredit h) with ⟨e, hst⟩ | ⟨n, b, m, hop, hst⟩ | ⟨a, hop, hst⟩ |
    ⟨f', r', w', b, hop, _⟩ | ⟨a, r, w, v, hop, _⟩ | ⟨a, r, w, v, hop, _⟩ |
    ⟨a, h', v, t, hop, _⟩ | ⟨a, h', v, t, hop, _⟩ | ⟨h', t', b, o, ht', hst, hcase⟩
  · rw [hst] at hc; cases hc
  · cases hop
  · cases hop
  · cases hop
  · cases hop
  · cases hop
  · cases hop
  · cases hop
  · rcases hcase with ⟨hop, _⟩ | ⟨hop, _, hbk⟩ | ⟨v, n, hop, _⟩ | ⟨v', n, hop, ho, g1, g2, g3⟩
    · cases hop
    · cases hop
    · cases hop
    · cases hop
      rw [hst, ho] at hc
      cases hc
      exact ⟨t', n, b, ht', rfl, g1, g2, g3, by rw [hst], by rw [hst]; exact FMap.get_erase_self _ _⟩

/-- C32. Closing a tip announces a median of the amounts declared by the current council members, less
the finder's fee (20 %, only for reported tips whose finder is not the beneficiary); and the tip is
gone afterwards. -/
theorem C32_median (cfg : Cfg) (bank : Bank) (ms : List AccId) (ops : List Op) (hs : SortedCouncil ms ops)
    (h : Nat) (who : AccId) (v : Nat)
    (hc : (step cfg (run cfg (genesis bank ms) ops).1 (.close h)).2 = .closed who v) :
    let s := (run cfg (genesis bank ms) ops).1
    ∃ k m, track cfg h (run cfg (genesis bank ms) ops).2 = some k ∧ k.who = who ∧
      IsMedian m (s.members.filterMap k.money) ∧
      v = m - (if k.reported = true ∧ k.finder ≠ k.who then divNearestDown (m * cfg.feePct) 100 else 0) ∧
      (step cfg s (.close h)).1.open_.get h = none := by
  intro s
  obtain ⟨hag, hms⟩ := stored_agrees cfg bank ms ops hs h
  obtain ⟨t, n, b, g1, g2, g3, g4, g5, g6, g7⟩ := close_shape hc
  rw [g1] at hag
  obtain ⟨k, hk, ha⟩ := agreeOpt_some hag
  unfold payoutTip at g5
  split at g5
  · cases g5
  rename_i m hm
  cases g5
  refine ⟨k, m, hk, by rw [← ha.who]; exact g2, ?_, ?_, g7⟩
  · have := (middle_median hm).perm (retain_amounts ha.sorted hms)
    rwa [show FMap.lget t.tips = k.money from funext ha.money] at this
  · unfold finderFee
    rw [ha.reported, ha.finder, ha.who]

theorem balances_aux (cfg : Cfg) (bank : Bank) (ms : List AccId) (ops : List Op) (hs : SortedCouncil ms ops)
    (hinj : ∀ a b c d, cfg.hashOf a b = cfg.hashOf c d → a = c ∧ b = d)
    (ho : OutsideRespectsDeposits (run cfg (genesis bank ms) ops).2)
    (h : Nat) (who : AccId) (v : Nat) (k : Track)
    (hk : track cfg h (run cfg (genesis bank ms) ops).2 = some k)
    (hed : (run cfg (genesis bank ms) ops).1.bank.ed ≤
      (run cfg (genesis bank ms) ops).1.bank.free k.finder + k.deposit)
    (hp1 : (run cfg (genesis bank ms) ops).1.account ≠ k.finder)
    (hp2 : (run cfg (genesis bank ms) ops).1.account ≠ k.who)
    (hc : (step cfg (run cfg (genesis bank ms) ops).1 (.close h)).2 = .closed who v) :
    let s := (run cfg (genesis bank ms) ops).1
    let s' := (step cfg s (.close h)).1
    ∃ m fee p1 p2, IsMedian m (s.members.filterMap k.money) ∧
      fee = (if k.reported = true ∧ k.finder ≠ k.who then divNearestDown (m * cfg.feePct) 100 else 0) ∧
      (p1 = 0 ∨ p1 = fee) ∧ (p2 = 0 ∨ p2 = m - fee) ∧
      s'.bank.free s.account + p1 + p2 = s.bank.free s.account ∧
      (∀ x, x ≠ s.account → s'.bank.free x = s.bank.free x + (if x = k.finder then k.deposit + p1 else 0) +
        (if x = k.who then p2 else 0)) ∧
      (∀ x, s'.bank.reserved x + (if x = k.finder then k.deposit else 0) = s.bank.reserved x) ∧
      (cfg.feePct ≤ 100 → s.bank.frozen s.account = 0 → s.bank.ed + m ≤ s.bank.free s.account →
        s.bank.ed ≤ s.bank.free k.finder → s.bank.ed ≤ s.bank.free k.who → p1 = fee ∧ p2 = m - fee) := by
  intro s s'
  obtain ⟨_, hbk, _⟩ := run_deposits hinj ops _ (genesis_kinv cfg bank ms) (genesis_backed bank ms) ho
  obtain ⟨hag, hms⟩ := stored_agrees cfg bank ms ops hs h
  obtain ⟨t, n, b, g1, g2, g3, g4, g5, g6, g7⟩ := close_shape hc
  rw [g1, hk] at hag
  have ha : Agree cfg t k := hag
  unfold payoutTip at g5
  split at g5
  · cases g5
  rename_i m hm
  have hmed : IsMedian m (s.members.filterMap k.money) := by
    have := (middle_median hm).perm (retain_amounts ha.sorted hms)
    rwa [show FMap.lget t.tips = k.money from funext ha.money] at this
  simp only [Except.ok.injEq, Prod.mk.injEq] at g5
  obtain ⟨g5, _⟩ := g5
  have e : s'.bank = b := g6
  have hfee : finderFee cfg t m =
      if k.reported = true ∧ k.finder ≠ k.who then divNearestDown (m * cfg.feePct) 100 else 0 := by
    unfold finderFee
    rw [ha.reported, ha.finder, ha.who]
  generalize hf : finderFee cfg t m = fee at *
  have hle : t.deposit ≤ s.bank.reserved t.finder := Nat.le_trans (deposit_le g1) (hbk t.finder)
  rw [← ha.finder, ← ha.deposit] at hed
  obtain ⟨r1, r2⟩ := giveBack_reserved hle
  have r3 := giveBack_free hle hed
  obtain ⟨r4, r5⟩ := giveBack_ed s.bank t
  rw [← ha.finder] at hp1
  rw [← ha.who] at hp2
  change s.account ≠ t.finder at hp1
  change s.account ≠ t.who at hp2
  generalize hb0 : giveBack s.bank t = b0 at *
  have g5' : attempt (attempt b0 s.account t.finder fee) s.account t.who (m - fee) = b := by
    exact g5
  obtain ⟨p1, q1, q2, q3, q4, q5, q6, q7⟩ := attempt_spec b0 fee hp1
  obtain ⟨p2, w1, w2, w3, w4, w5, w6, w7⟩ := attempt_spec (attempt b0 s.account t.finder fee) (m - fee) hp2
  have hfull : cfg.feePct ≤ 100 → s.bank.frozen s.account = 0 → s.bank.ed + m ≤ s.bank.free s.account →
        s.bank.ed ≤ s.bank.free k.finder → s.bank.ed ≤ s.bank.free k.who → p1 = fee ∧ p2 = m - fee := by
    intro c1 c2 c3 c4 c5
    rw [← ha.finder] at c4
    rw [← ha.who] at c5
    have hfm : fee ≤ m := by
      rw [hfee]; split
      · exact divNearestDown_pct_le c1
      · exact Nat.zero_le _
    have hpot : b0.free s.account = s.bank.free s.account :=
      congrArg Acct.free (r2 _ hp1)
    have hone : ∀ (b : Bank) (dst : AccId) (u : Balance) (p : Nat), s.account ≠ dst → b.frozen s.account = 0 →
        b.ed + u ≤ b.free s.account → b.ed ≤ b.free dst → (p = 0 ∨ p = u) →
        (attempt b s.account dst u).free dst = b.free dst + p → p = u := by
      intro b dst u p d1 d2 d3 d4 d5 d6
      by_cases hu : u = 0
      · rcases d5 with d5 | d5 <;> omega
      have hok : ∃ b', b.transfer s.account dst u true = .ok b' := by
        unfold Bank.transfer
        rw [if_neg (by rintro (h | h); exact hu h; exact d1 h), if_neg (by omega), if_neg (by rw [d2]; omega),
          if_neg (by simp only [true_and]; omega), if_neg (by rintro ⟨h, _⟩; omega), if_neg (by omega)]
        exact ⟨_, rfl⟩
      obtain ⟨b', hb'⟩ := hok
      have := (Bank.transfer_exact hb' d1).2.1
      unfold attempt at d6
      rw [hb'] at d6
      simp only at d6
      omega
    have hp : p1 = fee := hone b0 t.finder fee p1 hp1 (by rw [r5]; exact c2) (by rw [r4, hpot]; omega)
      (by rw [r4, r3]; omega) q1 q3
    refine ⟨hp, ?_⟩
    refine hone _ t.who (m - fee) p2 hp2 (by rw [q7, r5]; exact c2) (by rw [q6, r4]; omega) ?_ w1 w3
    rw [q6, r4]
    by_cases hwf : t.who = t.finder
    · rw [hwf, q3, r3]; omega
    · rw [show (attempt b0 s.account t.finder fee).free t.who = b0.free t.who from
        congrArg Acct.free (q5 _ (Ne.symm hp2) hwf), show b0.free t.who = s.bank.free t.who from
        congrArg Acct.free (r2 _ hwf)]
      exact c5
  refine ⟨m, fee, p1, p2, hmed, hfee, q1, w1, ?_, ?_, ?_, hfull⟩
  · rw [e, ← g5']
    have hpot : b0.free s.account = s.bank.free s.account := congrArg Acct.free (r2 _ hp1)
    omega
  · intro x hx
    rw [e, ← g5', ← ha.finder, ← ha.who, ← ha.deposit]
    by_cases hxw : x = t.who
    · rw [if_pos hxw]
      subst hxw
      rw [w3]
      by_cases hxf : t.who = t.finder
      · rw [if_pos hxf, hxf, q3, r3]; omega
      · rw [if_neg hxf, show (attempt b0 s.account t.finder fee).free t.who = b0.free t.who from
          congrArg Acct.free (q5 _ (Ne.symm hp2) hxf), show b0.free t.who = s.bank.free t.who from
          congrArg Acct.free (r2 _ hxf)]
        omega
    · rw [if_neg hxw, show (attempt (attempt b0 s.account t.finder fee) s.account t.who (m - fee)).free x =
        (attempt b0 s.account t.finder fee).free x from congrArg Acct.free (w5 x hx hxw)]
      by_cases hxf : x = t.finder
      · subst hxf
        rw [if_pos rfl, q3, r3]; omega
      · rw [if_neg hxf, show (attempt b0 s.account t.finder fee).free x = b0.free x from
          congrArg Acct.free (q5 _ hx hxf), show b0.free x = s.bank.free x from congrArg Acct.free (r2 _ hxf)]
        omega
  · intro x
    rw [e, ← g5', w4, q4, ← ha.finder, ← ha.deposit]
    by_cases hxf : x = t.finder
    · subst hxf; rw [if_pos rfl]; exact r1
    · rw [if_neg hxf, Bank.reserved_of_acct (r2 x hxf)]; omega

/-- The account tips are paid from: the one root has set last, account 0 before that. -/
def payer (ops : List Op) : AccId :=
  ops.foldl (fun p op => match op with
    | .setPot true a => a
    | _ => p) 0

theorem payer_eq (cfg : Cfg) (bank : Bank) (ms : List AccId) (ops : List Op) :
    (run cfg (genesis bank ms) ops).1.account = payer ops := by
  have key : ∀ (ops : List Op) (s : State) (p : AccId), s.account = p → (run cfg s ops).1.account =
      ops.foldl (fun p op => match op with
        | .setPot true a => a
        | _ => p) p := by
    intro ops
    induction ops with
    | nil => intro s p h; exact h
    | cons op ops ih =>
      intro s p h
      refine ih (step cfg s op).1 _ ?_
      rcases step_shape cfg s op with ⟨e, h'⟩ | ⟨n, b, m, rfl, h'⟩ | ⟨a, rfl, h'⟩ | ⟨f, r, w, b, rfl, _, _, _, _, h'⟩ |
        ⟨a, r, w, v, rfl, _, _, h'⟩ | ⟨a, r, w, v, rfl, _, _, h'⟩ | ⟨a, x, v, t, rfl, _, _, h'⟩ |
        ⟨a, x, v, t, rfl, _, _, h'⟩ | ⟨x, t, b, o, _, h', hop⟩
      · rw [h']
        cases op with
        | setPot root a =>
          cases root with
          | true => simp [step, body, setPot, Except.map] at h'
          | false => exact h
        | _ => exact h
      · rw [h']; exact h
      · rw [h']; rfl
      all_goals try (rw [h']; exact h)
      rcases hop with ⟨rfl, _⟩ | ⟨rfl, _⟩ | ⟨_, _, rfl, _⟩ | ⟨_, _, rfl, _⟩ <;> (rw [h']; exact h)
  exact key ops (genesis bank ms) 0 rfl

/-- C32. What closing a tip does to balances: the deposit goes back to the finder; the fee and the rest
of the median are each either paid in full from the payment account or not at all; no other account
changes. -/
theorem C32_balances (cfg : Cfg) (bank : Bank) (ms : List AccId) (ops : List Op) (hs : SortedCouncil ms ops)
    (hinj : ∀ a b c d, cfg.hashOf a b = cfg.hashOf c d → a = c ∧ b = d)
    (ho : OutsideRespectsDeposits (run cfg (genesis bank ms) ops).2)
    (h : Nat) (who : AccId) (v : Nat) (k : Track)
    (hk : track cfg h (run cfg (genesis bank ms) ops).2 = some k)
    (hed : (run cfg (genesis bank ms) ops).1.bank.ed ≤
      (run cfg (genesis bank ms) ops).1.bank.free k.finder + k.deposit)
    (hp1 : payer ops ≠ k.finder)
    (hp2 : payer ops ≠ k.who)
    (hc : (step cfg (run cfg (genesis bank ms) ops).1 (.close h)).2 = .closed who v) :
    let s := (run cfg (genesis bank ms) ops).1
    let s' := (step cfg s (.close h)).1
    ∃ m fee p1 p2, IsMedian m (s.members.filterMap k.money) ∧
      fee = (if k.reported = true ∧ k.finder ≠ k.who then divNearestDown (m * cfg.feePct) 100 else 0) ∧
      (p1 = 0 ∨ p1 = fee) ∧ (p2 = 0 ∨ p2 = m - fee) ∧
      s'.bank.free (payer ops) + p1 + p2 = s.bank.free (payer ops) ∧
      (∀ x, x ≠ payer ops → s'.bank.free x = s.bank.free x + (if x = k.finder then k.deposit + p1 else 0) +
        (if x = k.who then p2 else 0)) ∧
      (∀ x, s'.bank.reserved x + (if x = k.finder then k.deposit else 0) = s.bank.reserved x) ∧
      (cfg.feePct ≤ 100 → s.bank.frozen (payer ops) = 0 → s.bank.ed + m ≤ s.bank.free (payer ops) →
        s.bank.ed ≤ s.bank.free k.finder → s.bank.ed ≤ s.bank.free k.who → p1 = fee ∧ p2 = m - fee) := by
  intro s s'
  have e := payer_eq cfg bank ms ops
  rw [← e] at hp1 hp2
  have := balances_aux cfg bank ms ops hs hinj ho h who v k hk hed hp1 hp2 hc
  simp only [e] at this
  exact this

/-- C34, partial. A tip is paid out (in money or in credit) only if at some block at least half of the
council had declared amounts (of one kind), and not before the countdown counted from the first such
block has passed. Missing: that the declarations that counted are of the kind that is paid out (false,
see `C34_paid_without_majority`), and that it was more than half (false for councils of even size:
exactly half is enough). -/
theorem C34_majority_and_countdown_partial (cfg : Cfg) (bank : Bank) (ms : List AccId) (ops : List Op)
    (hs : SortedCouncil ms ops) (h : Nat) (who : AccId) (v : Nat)
    (hc : (step cfg (run cfg (genesis bank ms) ops).1 (.close h)).2 = .closed who v ∨
      (step cfg (run cfg (genesis bank ms) ops).1 (.closeCredit h)).2 = .credited who v) :
    ∃ k b kind, track cfg h (run cfg (genesis bank ms) ops).2 = some k ∧ k.majority = some (b, kind) ∧
      b + cfg.countdown ≤ (run cfg (genesis bank ms) ops).1.block := by
  obtain ⟨hag, hms⟩ := stored_agrees cfg bank ms ops hs h
  obtain ⟨t, n, g1, g3, g4⟩ : ∃ t n, (run cfg (genesis bank ms) ops).1.open_.get h = some t ∧
      t.closes = some n ∧ n ≤ (run cfg (genesis bank ms) ops).1.block := by
    rcases hc with hc | hc
    · obtain ⟨t, n, b, g1, _, g3, g4, _⟩ := close_shape hc
      exact ⟨t, n, g1, g3, g4⟩
    · obtain ⟨t, n, b, g1, _, g3, g4, _⟩ := closeCredit_shape hc
      exact ⟨t, n, g1, g3, g4⟩
  rw [g1] at hag
  obtain ⟨k, hk, ha⟩ := agreeOpt_some hag
  rw [ha.closes] at g3
  simp only [Option.map_eq_some_iff] at g3
  obtain ⟨⟨b, kind⟩, h1, h2⟩ := g3
  exact ⟨k, b, kind, hk, h1, by simp only at h2; omega⟩

/-- C34. The converse: once the countdown has passed, anybody can close the tip, provided a council
member's declaration of that kind is left. Otherwise closing panics. -/
theorem C34_can_be_closed (cfg : Cfg) (bank : Bank) (ms : List AccId) (ops : List Op)
    (hs : SortedCouncil ms ops) (h : Nat) (k : Track) (b : Nat) (kind : Bool)
    (hk : track cfg h (run cfg (genesis bank ms) ops).2 = some k) (hm : k.majority = some (b, kind))
    (hb : b + cfg.countdown ≤ (run cfg (genesis bank ms) ops).1.block) :
    let s := (run cfg (genesis bank ms) ops).1
    (s.members.filterMap k.money ≠ [] → ∃ v, (step cfg s (.close h)).2 = .closed k.who v) ∧
    (s.members.filterMap k.money = [] → (step cfg s (.close h)).2 = .failed .panic) ∧
    (s.members.filterMap k.credit ≠ [] → ∃ v, (step cfg s (.closeCredit h)).2 = .credited k.who v) ∧
    (s.members.filterMap k.credit = [] → (step cfg s (.closeCredit h)).2 = .failed .panic) := by
  intro s
  obtain ⟨hag, hms⟩ := stored_agrees cfg bank ms ops hs h
  rw [hk] at hag
  obtain ⟨t, ht, ha⟩ : ∃ t, s.open_.get h = some t ∧ Agree cfg t k := by
    cases hg : s.open_.get h with
    | none => rw [show (run cfg (genesis bank ms) ops).1.open_.get h = none from hg] at hag; exact hag.elim
    | some t => rw [show (run cfg (genesis bank ms) ops).1.open_.get h = some t from hg] at hag; exact ⟨t, rfl, hag⟩
  have htake : takeClosed s h = .ok (t, { s with reasons := s.reasons.erase t.reason, open_ := s.open_.erase h }) := by
    unfold takeClosed
    rw [ht]
    simp only
    rw [ha.closes, hm]
    simp only [Option.map_some]
    rw [if_neg (Nat.not_lt.2 hb)]
  have e1 : ((retain s.members t.tips).map Prod.snd).Perm (s.members.filterMap k.money) := by
    have := retain_amounts ha.sorted hms
    rwa [show FMap.lget t.tips = k.money from funext ha.money] at this
  have e2 : ((retain s.members t.credits).map Prod.snd).Perm (s.members.filterMap k.credit) := by
    have := retain_amounts ha.sortedC hms
    rwa [show FMap.lget t.credits = k.credit from funext ha.credit] at this
  refine ⟨?_, ?_, ?_, ?_⟩
  · intro hne
    cases hmid : middle (retain s.members t.tips) with
    | none =>
      rw [middle_none hmid] at e1
      exact absurd (List.Perm.nil_eq e1).symm hne
    | some m =>
      refine ⟨m - finderFee cfg t m, ?_⟩
      unfold step
      simp only [body, close, htake, payoutTip, hmid, Except.map]
      rw [ha.who]
  · intro he
    have : retain s.members t.tips = [] := by
      rw [he] at e1
      simpa using List.Perm.eq_nil e1
    unfold step
    simp only [body, close, htake, payoutTip, this]
    rfl
  · intro hne
    cases hmid : middle (retain s.members t.credits) with
    | none =>
      rw [middle_none hmid] at e2
      exact absurd (List.Perm.nil_eq e2).symm hne
    | some m =>
      refine ⟨min m cfg.maxCredit, ?_⟩
      unfold step
      simp only [body, closeCredit, htake, payoutCredit, hmid, Except.map]
      rw [ha.who]
  · intro he
    have : retain s.members t.credits = [] := by
      rw [he] at e2
      simpa using List.Perm.eq_nil e2
    unfold step
    simp only [body, closeCredit, htake, payoutCredit, this]
    rfl

/-- C67. Closing a credit tip gives the beneficiary a median of the credit declared by the current
council members, at most the maximum (15), and returns the deposit; it moves no money. -/
theorem C67_credit_tip (cfg : Cfg) (bank : Bank) (ms : List AccId) (ops : List Op) (hs : SortedCouncil ms ops)
    (h : Nat) (who : AccId) (v : Nat)
    (hc : (step cfg (run cfg (genesis bank ms) ops).1 (.closeCredit h)).2 = .credited who v) :
    let s := (run cfg (genesis bank ms) ops).1
    let s' := (step cfg s (.closeCredit h)).1
    ∃ k m, track cfg h (run cfg (genesis bank ms) ops).2 = some k ∧ k.who = who ∧
      IsMedian m (s.members.filterMap k.credit) ∧ v = min m cfg.maxCredit ∧
      s'.bank = (if k.deposit = 0 then s.bank else s.bank.unreserve k.finder k.deposit) ∧
      s'.open_.get h = none := by
  intro s s'
  obtain ⟨hag, hms⟩ := stored_agrees cfg bank ms ops hs h
  obtain ⟨t, n, b, g1, g2, g3, g4, g5, g6, g7⟩ := closeCredit_shape hc
  rw [g1] at hag
  obtain ⟨k, hk, ha⟩ := agreeOpt_some hag
  unfold payoutCredit at g5
  split at g5
  · cases g5
  rename_i m hm
  cases g5
  refine ⟨k, m, hk, by rw [← ha.who]; exact g2, ?_, rfl, ?_, g7⟩
  · have := (middle_median hm).perm (retain_amounts ha.sortedC hms)
    rwa [show FMap.lget t.credits = k.credit from funext ha.credit] at this
  · rw [← ha.deposit, ← ha.finder]; exact g6

/-! ### Examples and findings -/

def exCfg : Cfg := ⟨List.sum, fun a b => Nat.pair a b, 20, 10, 1, 100, 20, 15⟩

def exBank : Bank :=
  { ed := 1, accts := ((∅ : FMap AccId Acct).insert 8 ⟨1000, 0⟩).insert 9 ⟨1000, 0⟩
    frozen := fun _ => 0, pinned := fun _ => false, issuance := 2000 }

theorem exCfg_inj : ∀ a b c d, exCfg.hashOf a b = exCfg.hashOf c d → a = c ∧ b = d :=
  fun _ _ _ _ h => Nat.pair_eq_pair.1 h

/-- Account 8 reports account 5 for reason `[7]`; three members declare 100, 10 and 50; one of the four
leaves; after the countdown the (upper) median 100 of 10 and 100 is paid from account 9: 20 to the finder. -/
def exOps : List Op :=
  let h := Nat.pair 7 5
  [.setPot true 9, .report 8 [7] 5, .tip 1 h 100, .tip 4 h 10, .tip 3 h 50]

example :
    let s0 := (run exCfg (genesis exBank [1, 2, 3, 4]) exOps).1
    let ops := exOps ++ [.external 100 s0.bank [1, 2, 4]]
    let s := (run exCfg (genesis exBank [1, 2, 3, 4]) ops).1
    let r := step exCfg s (.close (Nat.pair 7 5))
    r.2 = .closed 5 80 ∧ r.1.bank.free 5 = 80 ∧ r.1.bank.free 8 = 1020 ∧ r.1.bank.reserved 8 = 0 ∧
    r.1.bank.free 9 = 900 ∧ s.bank.reserved 8 = 11 ∧ s.bank.free 8 = 989 := by
  decide +kernel

example : payer exOps = 9 ∧ payer (exOps ++ [.setPot false 5]) = 9 ∧ payer [] = 0 := by decide

example : SortedCouncil [1, 2, 3, 4] (exOps ++ [.external 100 exBank [1, 2, 4]]) := by
  refine ⟨by decide, ?_⟩
  intro n b m h
  simp only [exOps, List.cons_append, List.nil_append, List.mem_cons, reduceCtorEq, List.not_mem_nil, or_false,
    false_or, Op.external.injEq] at h
  obtain ⟨_, _, rfl⟩ := h
  decide

/-- C34, finding: declarations in credit start the countdown also for money. Two of four members declare
credit; then one single member declares a large sum, and it is paid. -/
theorem C34_paid_without_majority :
    ∃ (ops : List Op) (h : Nat),
      let s := (run exCfg (genesis exBank [1, 2, 3, 4]) ops).1
      (step exCfg s (.close h)).2 = .closed 5 700 ∧ (step exCfg s (.close h)).1.bank.free 5 = 700 ∧
      ∃ k, track exCfg h (run exCfg (genesis exBank [1, 2, 3, 4]) ops).2 = some k ∧
        s.members.filterMap k.money = [700] := by
  refine ⟨[.setPot true 9, .creditNew 1 [7] 5 1, .creditTip 2 (Nat.pair 7 5) 1, .external 100 exBank [1, 2, 3, 4],
    .tip 3 (Nat.pair 7 5) 700], Nat.pair 7 5, ?_⟩
  refine ⟨by decide +kernel, by decide +kernel, _, rfl, ?_⟩
  decide +kernel

/-- C32, finding: if the payment account cannot pay, nothing is paid, but the event announces the
payout and the tip is gone. -/
theorem C32_announced_but_not_paid :
    ∃ (ops : List Op) (h : Nat),
      let s := (run exCfg (genesis exBank [1, 2, 3]) ops).1
      (step exCfg s (.close h)).2 = .closed 5 5000 ∧ (step exCfg s (.close h)).1.bank.free 5 = s.bank.free 5 ∧
      (step exCfg s (.close h)).1.open_.get h = none := by
  refine ⟨[.setPot true 9, .tipNew 1 [7] 5 5000, .tip 2 (Nat.pair 7 5) 5000, .external 100 exBank [1, 2, 3]],
    Nat.pair 7 5, ?_⟩
  refine ⟨by decide +kernel, by decide +kernel, rfl⟩

/-- C34, finding: anybody can make the chain panic by closing a credit tip as a money tip. -/
theorem C34_close_panics :
    ∃ (ops : List Op) (h : Nat),
      (step exCfg (run exCfg (genesis exBank [1, 2, 3]) ops).1 (.close h)).2 = .failed .panic := by
  refine ⟨[.creditNew 1 [7] 5 1, .creditTip 2 (Nat.pair 7 5) 1, .external 100 exBank [1, 2, 3]], Nat.pair 7 5, ?_⟩
  decide +kernel

end Verif.Tips
