import Verif.AdscProofs

/-
Properties C30, C31, C64, C65, C66: ADSC rewards, swap, NFTs of stakers.
-/

namespace Verif.Adsc

open Verif.UserPrivileges (Privilege)
open Verif.Credit (perbillMul)

/-! ### Specifications -/

/-- Number of rewards to `a` in a list. -/
def countOf (a : AccId) (l : List Pay) : Nat := (l.map Pay.acc).count a

/-- Number of rewards to `a` on day `d`. -/
def paysOn (a : AccId) (d : Nat) : List (State × Op × Out) → Nat
  | [] => 0
  | (s, .init, .paid l) :: tr => (if s.today = d then countOf a l else 0) + paysOn a d tr
  | _ :: tr => paysOn a d tr

/-- Latest registration of an account: number of days granted and number of rewards since. -/
structure Reg where
  days : Nat
  count : Nat
deriving DecidableEq, Repr

/-- Bookkeeping of one call. -/
def regStep (a : AccId) (t : Option Reg) : State × Op × Out → Option Reg
  | (s, .addStaker _ b, .done) => if b = a then some ⟨s.period, 0⟩ else t
  | (s, .addStakerNft _ b _, .done) => if b = a then some ⟨s.period, 0⟩ else t
  | (_, .init, .paid l) => t.map fun t => { t with count := t.count + countOf a l }
  | _ => t

/-- The latest registration of `a`, read off the history. -/
def registration (a : AccId) (tr : List (State × Op × Out)) : Option Reg := tr.foldl (regStep a) none

/-- Sum of all rewards minted in a history. -/
def rewardsMinted : List (State × Op × Out) → Balance
  | [] => 0
  | (_, .init, .paid l) :: tr => paidAll l + rewardsMinted tr
  | _ :: tr => rewardsMinted tr

/-- Number of blocks in a list of calls. -/
def blocks : List Op → Nat
  | [] => 0
  | .init :: ops => blocks ops + 1
  | _ :: ops => blocks ops

/-! ### Frame -/

/-- Storage concerning rewards is the same, except for money. -/
structure Same (s s' : State) : Prop where
  stakers : s'.stakers = s.stakers
  nftOf : s'.nftOf = s.nftOf
  cursor : s'.cursor = s.cursor
  now : s.now ≤ s'.now
  savedDay : s'.savedDay = s.savedDay
  perBlock : s'.perBlock = s.perBlock
  minted : s'.minted = s.minted

theorem addStakerNft_ok {s s' : State} {w a : AccId} {i : Nat × Nat} (h : addStakerNft s w a i = .ok s') :
    s.priv w .creditAdmin = true ∧
    ∃ n, s' = { s with stakers := s.stakers.insert a s.period, nftOf := s.nftOf.insert a i, nfts := n } := by
  unfold addStakerNft at h
  split at h
  · cases h
  rename_i hp
  split at h
  · cases h
  split at h
  · cases h
  cases h
  exact ⟨by simpa using hp, _, rfl⟩

theorem addStaker_ok {s s' : State} {w a : AccId} (h : addStaker s w a = .ok s') :
    s.priv w .creditAdmin = true ∧ s' = { s with stakers := s.stakers.insert a s.period } := by
  unfold addStaker at h
  split at h
  · cases h
  rename_i hp
  cases h
  exact ⟨by simpa using hp, rfl⟩

/-- Calls and what they may change. -/
theorem step_shape (cfg : Cfg) (s : State) (op : Op) :
    (Same s (step cfg s op).1 ∧ op ≠ .init ∧
      ((step cfg s op).1.offline = s.offline ∨ ∃ f, op = .setOffline f) ∧
      ((step cfg s op).1.base = s.base ∨ ∃ w b, op = .setBase w b) ∧
      ((step cfg s op).1.target = s.target ∨ ∃ w b, op = .setTarget w b) ∧
      ((step cfg s op).1.period = s.period ∨ ∃ w b, op = .setPeriod w b) ∧
      ((step cfg s op).2 ≠ .done ∨ ((∀ w a, op ≠ .addStaker w a) ∧ ∀ w a i, op ≠ .addStakerNft w a i))) ∨
    (op = .init ∧ step cfg s op = ((blockInit cfg s).1, .paid (blockInit cfg s).2)) ∨
    (∃ w a, op = .addStaker w a ∧ (step cfg s op).2 = .done ∧
      (step cfg s op).1 = { s with stakers := s.stakers.insert a s.period }) ∨
    (∃ w a i n, op = .addStakerNft w a i ∧ (step cfg s op).2 = .done ∧
      (step cfg s op).1 =
        { s with stakers := s.stakers.insert a s.period, nftOf := s.nftOf.insert a i, nfts := n }) := by
  have hsame : ∀ s' : State, s'.stakers = s.stakers → s'.nftOf = s.nftOf → s'.cursor = s.cursor →
      s.now ≤ s'.now → s'.savedDay = s.savedDay → s'.perBlock = s.perBlock → s'.minted = s.minted →
      Same s s' := fun _ a b c d e f g => ⟨a, b, c, d, e, f, g⟩
  rcases step_cases cfg s op with ⟨r, hb, hs⟩ | ⟨e, hb, hs⟩
  swap
  · by_cases hop : op = .init
    · subst hop; exact Or.inr (Or.inl ⟨rfl, rfl⟩)
    left
    rw [hs]
    exact ⟨hsame s rfl rfl rfl (Nat.le_refl _) rfl rfl rfl, hop, Or.inl rfl, Or.inl rfl, Or.inl rfl, Or.inl rfl,
      Or.inl (by simp)⟩
  cases op with
  | init => exact Or.inr (Or.inl ⟨rfl, rfl⟩)
  | addStaker w a =>
    right; right; left
    simp only [body] at hb
    obtain ⟨s', hr, hs'⟩ := map_ok hb
    exact ⟨w, a, rfl, by rw [hs, ← hs'], by rw [hs, ← hs']; exact (addStaker_ok hr).2⟩
  | addStakerNft w a i =>
    right; right; right
    simp only [body] at hb
    obtain ⟨s', hr, hs'⟩ := map_ok hb
    obtain ⟨_, n, hn⟩ := addStakerNft_ok hr
    exact ⟨w, a, i, n, rfl, by rw [hs, ← hs'], by rw [hs, ← hs']; exact hn⟩
  | setPeriod w p =>
    left
    simp only [body] at hb
    obtain ⟨s', hr, hs'⟩ := map_ok hb
    rw [hs, ← hs']
    unfold setPeriod at hr
    split at hr
    · cases hr
    cases hr
    exact ⟨hsame _ rfl rfl rfl (Nat.le_refl _) rfl rfl rfl, by simp, Or.inl rfl, Or.inl rfl, Or.inl rfl,
      Or.inr ⟨w, p, rfl⟩, Or.inr ⟨by simp, by simp⟩⟩
  | setTarget w p =>
    left
    simp only [body] at hb
    obtain ⟨s', hr, hs'⟩ := map_ok hb
    rw [hs, ← hs']
    unfold setTarget at hr
    split at hr
    · cases hr
    cases hr
    exact ⟨hsame _ rfl rfl rfl (Nat.le_refl _) rfl rfl rfl, by simp, Or.inl rfl, Or.inl rfl, Or.inr ⟨w, p, rfl⟩,
      Or.inl rfl, Or.inr ⟨by simp, by simp⟩⟩
  | setBase w p =>
    left
    simp only [body] at hb
    obtain ⟨s', hr, hs'⟩ := map_ok hb
    rw [hs, ← hs']
    unfold setBase at hr
    split at hr
    · cases hr
    cases hr
    exact ⟨hsame _ rfl rfl rfl (Nat.le_refl _) rfl rfl rfl, by simp, Or.inl rfl, Or.inr ⟨w, p, rfl⟩, Or.inl rfl,
      Or.inl rfl, Or.inr ⟨by simp, by simp⟩⟩
  | setRate w p =>
    left
    simp only [body] at hb
    obtain ⟨s', hr, hs'⟩ := map_ok hb
    rw [hs, ← hs']
    unfold setRate at hr
    split at hr
    · cases hr
    cases hr
    exact ⟨hsame _ rfl rfl rfl (Nat.le_refl _) rfl rfl rfl, by simp, Or.inl rfl, Or.inl rfl, Or.inl rfl,
      Or.inl rfl, Or.inr ⟨by simp, by simp⟩⟩
  | bridgeBurn w a v =>
    left
    simp only [body] at hb
    obtain ⟨s', hr, hs'⟩ := map_ok hb
    rw [hs, ← hs']
    unfold bridgeBurn at hr
    split at hr
    · cases hr
    obtain ⟨x, _, rfl⟩ := map_ok hr
    exact ⟨hsame _ rfl rfl rfl (Nat.le_refl _) rfl rfl rfl, by simp, Or.inl rfl, Or.inl rfl, Or.inl rfl,
      Or.inl rfl, Or.inr ⟨by simp, by simp⟩⟩
  | bridgeMint w a v =>
    left
    simp only [body] at hb
    obtain ⟨s', hr, hs'⟩ := map_ok hb
    rw [hs, ← hs']
    unfold bridgeMint at hr
    split at hr
    · cases hr
    obtain ⟨x, _, rfl⟩ := map_ok hr
    exact ⟨hsame _ rfl rfl rfl (Nat.le_refl _) rfl rfl rfl, by simp, Or.inl rfl, Or.inl rfl, Or.inl rfl,
      Or.inl rfl, Or.inr ⟨by simp, by simp⟩⟩
  | swap w v =>
    left
    simp only [body] at hb
    obtain ⟨s', hr, hs'⟩ := map_ok hb
    rw [hs, ← hs']
    unfold swap at hr
    split at hr
    · cases hr
    split at hr
    · cases hr
    obtain ⟨x, _, rfl⟩ := map_ok hr
    exact ⟨hsame _ rfl rfl rfl (Nat.le_refl _) rfl rfl rfl, by simp, Or.inl rfl, Or.inl rfl, Or.inl rfl,
      Or.inl rfl, Or.inr ⟨by simp, by simp⟩⟩
  | addPool r v =>
    left
    simp only [body] at hb
    obtain ⟨s', hr, hs'⟩ := map_ok hb
    rw [hs, ← hs']
    unfold addPool at hr
    split at hr
    · cases hr
    cases hr
    exact ⟨hsame _ rfl rfl rfl (Nat.le_refl _) rfl rfl rfl, by simp, Or.inl rfl, Or.inl rfl, Or.inl rfl,
      Or.inl rfl, Or.inr ⟨by simp, by simp⟩⟩
  | external dt b x n p =>
    left
    simp only [body] at hb
    cases hb
    rw [hs]
    exact ⟨hsame _ rfl rfl rfl (Nat.le_add_right _ _) rfl rfl rfl, by simp, Or.inl rfl, Or.inl rfl, Or.inl rfl,
      Or.inl rfl, Or.inr ⟨by simp, by simp⟩⟩
  | setOffline f =>
    left
    simp only [body] at hb
    cases hb
    rw [hs]
    exact ⟨hsame _ rfl rfl rfl (Nat.le_refl _) rfl rfl rfl, by simp, Or.inr ⟨f, rfl⟩, Or.inl rfl, Or.inl rfl,
      Or.inl rfl, Or.inr ⟨by simp, by simp⟩⟩

theorem today_mono {s s' : State} (h : s.now ≤ s'.now) : s.today ≤ s'.today :=
  Nat.div_le_div_right h

theorem paysOn_append (a : AccId) (d : Nat) (tr tr' : List (State × Op × Out)) :
    paysOn a d (tr ++ tr') = paysOn a d tr + paysOn a d tr' := by
  induction tr with
  | nil => simp [paysOn]
  | cons e es ih =>
    obtain ⟨s, op, o⟩ := e
    cases op <;> cases o <;> simp only [List.cons_append, paysOn, ih]; omega

theorem paysOn_skip {op : Op} (h : op ≠ .init) (a : AccId) (d : Nat) (s : State) (o : Out) :
    paysOn a d [(s, op, o)] = 0 := by
  cases op <;> first | rfl | exact absurd rfl h

/-- Number of rewards of a block for one account. -/
theorem Rewarded.count {cfg : Cfg} {s s' : State} {pays : List Pay} {k : Nat} {vis : List (AccId × Nat)}
    (h : Rewarded cfg s s' pays k vis) (a : AccId) :
    countOf a pays = if a ∈ paidOf vis then 1 else 0 := by
  unfold countOf
  rw [h.accs]
  have hn : (paidOf vis).Nodup := List.Nodup.sublist (List.filter_sublist.map _) h.nodup
  split
  · rename_i hm; exact List.count_eq_one_of_mem hn hm
  · rename_i hm; exact List.count_eq_zero_of_not_mem hm

theorem mem_paidOf {vis : List (AccId × Nat)} {a : AccId} :
    a ∈ paidOf vis ↔ ∃ p, (a, p) ∈ vis ∧ p ≠ 0 := by
  unfold paidOf; simp

/-- All keys of the visited stakers are at most the new cursor. -/
theorem Rewarded.le_cursor {cfg : Cfg} {s s' : State} {pays : List Pay} {k : Nat}
    {vis : List (AccId × Nat)} (h : Rewarded cfg s s' pays k vis) {k' : Nat} (hk : s'.cursor = some k') :
    k < k' ∧ ∀ a p, (a, p) ∈ vis → cfg.key a ≤ k' := by
  rw [h.cursor] at hk
  have hm := List.mem_of_getLast? hk
  obtain ⟨⟨b, q⟩, hb, hbk⟩ := List.mem_map.1 hm
  refine ⟨by have := (h.mem b q hb).2.2; simp only at hbk; omega, ?_⟩
  intro a p hap
  have hs := h.sorted
  have hm2 : cfg.key a ∈ vis.map fun e => cfg.key e.1 := List.mem_map.2 ⟨(a, p), hap, rfl⟩
  obtain ⟨ys, hys⟩ := List.getLast?_eq_some_iff.1 hk
  rw [hys] at hs hm2
  rw [List.pairwise_append] at hs
  rw [List.mem_append, List.mem_singleton] at hm2
  rcases hm2 with hm2 | hm2
  · exact hs.2.2 _ hm2 k' (by simp)
  · omega

/-! ### C30 -/

/-- Invariant: at most one reward a day. -/
structure OInv (cfg : Cfg) (a : AccId) (s : State) (tr : List (State × Op × Out)) : Prop where
  day : s.savedDay ≤ s.today
  future : ∀ d, s.savedDay < d → paysOn a d tr = 0
  once : ∀ d, paysOn a d tr ≤ 1
  done : paysOn a s.savedDay tr = 1 → ∀ k, s.cursor = some k → cfg.key a ≤ k

theorem step_oinv (cfg : Cfg) {a : AccId} {s : State} {tr : List (State × Op × Out)}
    (h : OInv cfg a s tr) (op : Op) :
    OInv cfg a (step cfg s op).1 (tr ++ [(s, op, (step cfg s op).2)]) := by
  have hskip : op ≠ .init → ∀ s' : State, s.now ≤ s'.now → s'.savedDay = s.savedDay → s'.cursor = s.cursor →
      OInv cfg a s' (tr ++ [(s, op, (step cfg s op).2)]) := by
    intro hop s' h1 h2 h3
    have hp : ∀ d, paysOn a d (tr ++ [(s, op, (step cfg s op).2)]) = paysOn a d tr := by
      intro d; rw [paysOn_append, paysOn_skip hop]; rfl
    refine ⟨?_, ?_, ?_, ?_⟩
    · rw [h2]; exact Nat.le_trans h.day (today_mono h1)
    · intro d hd; rw [hp]; exact h.future d (by omega)
    · intro d; rw [hp]; exact h.once d
    · rw [hp, h2, h3]; exact h.done
  rcases step_shape cfg s op with ⟨hsm, hop, _⟩ | ⟨rfl, hst⟩ | ⟨w, b, rfl, _, hst⟩ | ⟨w, b, i, n, rfl, _, hst⟩
  · exact hskip hop _ hsm.now hsm.savedDay hsm.cursor
  · rw [hst]
    have hp : ∀ d, paysOn a d (tr ++ [(s, .init, .paid (blockInit cfg s).2)]) =
        paysOn a d tr + (if s.today = d then countOf a (blockInit cfg s).2 else 0) := by
      intro d; rw [paysOn_append]; simp [paysOn]
    by_cases hd : s.savedDay < s.today
    · rw [init_rollover cfg s hd] at *
      have hp' : ∀ d, paysOn a d (tr ++ [(s, .init, .paid [])]) = paysOn a d tr := by
        intro d; rw [hp]; simp [countOf]
      refine ⟨Nat.le_refl _, ?_, ?_, ?_⟩
      · intro d hd'; rw [hp']; exact h.future d (by simp only at hd'; omega)
      · intro d; rw [hp']; exact h.once d
      · intro h1; rw [hp', h.future _ hd] at h1; omega
    · have heq : s.savedDay = s.today := by have := h.day; omega
      rw [init_reward cfg s hd] at *
      cases hc : s.cursor with
      | none =>
        rw [reward_idle cfg s hc] at *
        have hp' : ∀ d, paysOn a d (tr ++ [(s, .init, .paid [])]) = paysOn a d tr := by
          intro d; rw [hp]; simp [countOf]
        refine ⟨h.day, ?_, ?_, ?_⟩
        · intro d hd'; rw [hp']; exact h.future d hd'
        · intro d; rw [hp']; exact h.once d
        · intro _ k hk; simp only at hk; rw [hc] at hk; cases hk
      | some k =>
        obtain ⟨vis, hv⟩ := reward_rewarded cfg s k hc
        have hcnt := hv.count a
        have hzero : a ∈ paidOf vis → paysOn a s.today tr = 0 := by
          intro hm
          obtain ⟨p, hpv, _⟩ := mem_paidOf.1 hm
          have h1 := (hv.mem a p hpv).2.2
          have h2 := h.once s.savedDay
          by_contra hne
          have := h.done (by rw [heq]; rw [heq] at h2; omega) k hc
          omega
        have htd : (reward cfg s).1.today = s.today := by unfold State.today; rw [hv.now]
        refine ⟨by rw [hv.savedDay, htd]; exact h.day, ?_, ?_, ?_⟩
        · intro d hd'
          rw [hv.savedDay] at hd'
          rw [hp, if_neg (by omega), h.future d hd']
        · intro d
          rw [hp]
          by_cases hdd : s.today = d
          · subst hdd
            rw [if_pos rfl, hcnt]
            split
            · rename_i hm; rw [hzero hm]; exact Nat.le_refl _
            · exact h.once _
          · rw [if_neg hdd]; exact h.once d
        · intro h1 k' hk'
          rw [hv.savedDay, heq, hp, if_pos rfl, hcnt] at h1
          obtain ⟨hlt, hle⟩ := hv.le_cursor hk'
          by_cases hm : a ∈ paidOf vis
          · obtain ⟨p, hpv, _⟩ := mem_paidOf.1 hm
            exact hle a p hpv
          · rw [if_neg hm] at h1
            have := h.done (by rw [heq]; exact h1) k hc
            omega
  · exact hskip (by simp) _ (by rw [hst]; exact Nat.le_refl _) (by rw [hst]) (by rw [hst])
  · exact hskip (by simp) _ (by rw [hst]; exact Nat.le_refl _) (by rw [hst]) (by rw [hst])

theorem run_oinv (cfg : Cfg) (a : AccId) (ops : List Op) : ∀ (s : State) (tr : List (State × Op × Out)),
    OInv cfg a s tr → OInv cfg a (run cfg s ops).1 (tr ++ (run cfg s ops).2) := by
  induction ops with
  | nil => intro s tr h; simpa [run] using h
  | cons op ops ih =>
    intro s tr h
    have := ih _ _ (step_oinv cfg h op)
    rw [List.append_assoc] at this
    exact this

/-- C30. In every history an account gets at most one ADSC reward on any day, whatever is registered,
removed or registered again in between, and in whatever order accounts are processed. -/
theorem C30_at_most_once_a_day (cfg : Cfg) (bank : Bank) (asset : Asset) (base : Balance)
    (ops : List Op) (a : AccId) (d : Nat) :
    paysOn a d (run cfg (genesis cfg bank asset base) ops).2 ≤ 1 := by
  have h0 : OInv cfg a (genesis cfg bank asset base) [] :=
    ⟨Nat.zero_le _, fun _ _ => rfl, fun _ => Nat.zero_le _, fun h => by cases h⟩
  have := (run_oinv cfg a ops _ _ h0).once d
  rwa [List.nil_append] at this

/-- Invariant: storage agrees with the registration. -/
structure RInv (a : AccId) (s : State) (t : Option Reg) : Prop where
  unreg : t = none → s.stakers.get a = none
  reg : ∀ r, t = some r → r.count ≤ r.days ∧
    (s.stakers.get a = some (r.days - r.count) ∨ (r.count = r.days ∧ s.stakers.get a = none))

theorem regStep_other {a : AccId} {t : Option Reg} {s : State} {op : Op} {o : Out} (h1 : op ≠ .init)
    (h2 : o ≠ .done ∨ ((∀ w a, op ≠ .addStaker w a) ∧ ∀ w a i, op ≠ .addStakerNft w a i)) :
    regStep a t (s, op, o) = t := by
  cases op with
  | init => exact absurd rfl h1
  | addStaker w b =>
    rcases h2 with h2 | h2
    · cases o <;> first | rfl | exact absurd rfl h2
    · exact absurd rfl (h2.1 w b)
  | addStakerNft w b i =>
    rcases h2 with h2 | h2
    · cases o <;> first | rfl | exact absurd rfl h2
    · exact absurd rfl (h2.2 w b i)
  | _ => rfl

theorem map_count_zero (t : Option Reg) : (t.map fun t => { t with count := t.count + 0 }) = t := by
  cases t <;> rfl

theorem step_rinv (cfg : Cfg) {a : AccId} {s : State} {t : Option Reg} (h : RInv a s t) (op : Op) :
    RInv a (step cfg s op).1 (regStep a t (s, op, (step cfg s op).2)) := by
  rcases step_shape cfg s op with ⟨hsm, hop, _, _, _, _, hno⟩ | ⟨rfl, hst⟩ | ⟨w, b, rfl, hdone, hst⟩ |
    ⟨w, b, i, n, rfl, hdone, hst⟩
  · rw [regStep_other hop hno]
    exact ⟨by rw [hsm.stakers]; exact h.unreg, by rw [hsm.stakers]; exact h.reg⟩
  · rw [hst]
    show RInv a (blockInit cfg s).1 (t.map fun t => { t with count := t.count + countOf a (blockInit cfg s).2 })
    by_cases hd : s.savedDay < s.today
    · rw [init_rollover cfg s hd]
      simp only [countOf, List.map_nil, List.count_nil, map_count_zero]
      exact ⟨h.unreg, h.reg⟩
    · rw [init_reward cfg s hd]
      cases hc : s.cursor with
      | none =>
        rw [reward_idle cfg s hc]
        simp only [countOf, List.map_nil, List.count_nil, map_count_zero]
        exact h
      | some k =>
        obtain ⟨vis, hv⟩ := reward_rewarded cfg s k hc
        rw [hv.count a]
        by_cases hin : a ∈ vis.map Prod.fst
        · obtain ⟨⟨b, p⟩, hp, hb⟩ := List.mem_map.1 hin
          rw [show b = a from hb] at hp
          have hst := (hv.mem a p hp).1
          have hpaid : a ∈ paidOf vis ↔ p ≠ 0 := by
            rw [mem_paidOf]
            constructor
            · rintro ⟨p', hp', hne⟩
              have := (hv.mem a p' hp').1
              rw [hst] at this
              cases this
              exact hne
            · intro hne; exact ⟨p, hp, hne⟩
          refine ⟨?_, ?_⟩
          · intro ht
            cases t with
            | none => rw [h.unreg rfl] at hst; cases hst
            | some r => cases ht
          · intro r ht
            cases t with
            | none => cases ht
            | some r' =>
              simp only [Option.map_some, Option.some.injEq] at ht
              obtain ⟨h1, h2⟩ := h.reg r' rfl
              rw [hst] at h2
              rcases h2 with h2 | ⟨_, h2⟩
              · simp only [Option.some.injEq] at h2
                rw [hv.inside a p hp]
                by_cases hp0 : p = 0
                · rw [if_neg (by rw [hpaid]; exact fun h => h hp0)] at ht
                  subst ht
                  rw [if_pos hp0]
                  simp only
                  exact ⟨by omega, Or.inr ⟨by omega, trivial⟩⟩
                · rw [if_pos (hpaid.2 hp0)] at ht
                  subst ht
                  rw [if_neg hp0]
                  simp only
                  refine ⟨by omega, Or.inl ?_⟩
                  congr 1
                  omega
              · cases h2
        · have hnp : a ∉ paidOf vis := by
            intro hm
            obtain ⟨p, hp, _⟩ := mem_paidOf.1 hm
            exact hin (List.mem_map.2 ⟨_, hp, rfl⟩)
          rw [if_neg hnp, map_count_zero]
          exact ⟨by rw [hv.outside a hin]; exact h.unreg, by rw [hv.outside a hin]; exact h.reg⟩
  · rw [hdone, hst]
    simp only [regStep]
    by_cases hb : b = a
    · subst hb
      rw [if_pos rfl]
      exact ⟨(fun h => by cases h), fun r hr => by cases hr; exact ⟨Nat.zero_le _, Or.inl (by simp)⟩⟩
    · rw [if_neg hb]
      refine ⟨?_, ?_⟩
      · simp only [FMap.get_insert_ne _ _ (Ne.symm hb)]; exact h.unreg
      · simp only [FMap.get_insert_ne _ _ (Ne.symm hb)]; exact h.reg
  · rw [hdone, hst]
    simp only [regStep]
    by_cases hb : b = a
    · subst hb
      rw [if_pos rfl]
      exact ⟨(fun h => by cases h), fun r hr => by cases hr; exact ⟨Nat.zero_le _, Or.inl (by simp)⟩⟩
    · rw [if_neg hb]
      refine ⟨?_, ?_⟩
      · simp only [FMap.get_insert_ne _ _ (Ne.symm hb)]; exact h.unreg
      · simp only [FMap.get_insert_ne _ _ (Ne.symm hb)]; exact h.reg

theorem run_rinv (cfg : Cfg) (a : AccId) (ops : List Op) : ∀ (s : State) (t : Option Reg), RInv a s t →
    RInv a (run cfg s ops).1 ((run cfg s ops).2.foldl (regStep a) t) := by
  induction ops with
  | nil => intro s t h; exact h
  | cons op ops ih => intro s t h; exact ih _ _ (step_rinv cfg h op)

theorem genesis_rinv (cfg : Cfg) (bank : Bank) (asset : Asset) (base : Balance) (a : AccId) :
    RInv a (genesis cfg bank asset base) none :=
  ⟨fun _ => rfl, fun r h => by cases h⟩

/-- C30. Since its latest registration an account got at most as many rewards as days were granted;
the remaining days recorded are the days granted less the rewards, and with no days left the account
is removed without a reward. -/
theorem C30_total_number (cfg : Cfg) (bank : Bank) (asset : Asset) (base : Balance) (ops : List Op)
    (a : AccId) (r : Reg)
    (h : registration a (run cfg (genesis cfg bank asset base) ops).2 = some r) :
    let s := (run cfg (genesis cfg bank asset base) ops).1
    r.count ≤ r.days ∧
    (s.stakers.get a = some (r.days - r.count) ∨ (r.count = r.days ∧ s.stakers.get a = none)) :=
  (run_rinv cfg a ops _ _ (genesis_rinv cfg bank asset base a)).reg r h

/-- C30. An account that was never registered gets no reward. -/
theorem C30_not_registered (cfg : Cfg) (bank : Bank) (asset : Asset) (base : Balance) (ops : List Op)
    (a : AccId) (h : registration a (run cfg (genesis cfg bank asset base) ops).2 = none) :
    countOf a (blockInit cfg (run cfg (genesis cfg bank asset base) ops).1).2 = 0 := by
  have hr := (run_rinv cfg a ops _ _ (genesis_rinv cfg bank asset base a)).unreg h
  generalize (run cfg (genesis cfg bank asset base) ops).1 = s at *
  by_cases hd : s.savedDay < s.today
  · rw [init_rollover cfg s hd]; rfl
  · rw [init_reward cfg s hd]
    cases hc : s.cursor with
    | none => rw [reward_idle cfg s hc]; rfl
    | some k =>
      obtain ⟨vis, hv⟩ := reward_rewarded cfg s k hc
      rw [hv.count a, if_neg]
      intro hm
      obtain ⟨p, hp, _⟩ := mem_paidOf.1 hm
      have := (hv.mem a p hp).1
      rw [hr] at this
      cases this

/-- C30. The amount of a reward: the base reward (halved possibly several times within the block)
times remaining days over the reward period, where the remaining days are the days granted less the
rewards received; it goes only to accounts that are online. -/
theorem C30_amount (cfg : Cfg) (bank : Bank) (asset : Asset) (base : Balance) (ops : List Op) (p : Pay)
    (hp : p ∈ (blockInit cfg (run cfg (genesis cfg bank asset base) ops).1).2) :
    let s := (run cfg (genesis cfg bank asset base) ops).1
    ∃ r j, registration p.acc (run cfg (genesis cfg bank asset base) ops).2 = some r ∧
      r.count < r.days ∧ s.offline p.acc = false ∧
      p.amount = perbillMul (r.days - r.count) s.period (s.base / 2 ^ j) := by
  have hinv := run_rinv cfg p.acc ops _ _ (genesis_rinv cfg bank asset base p.acc)
  generalize (run cfg (genesis cfg bank asset base) ops).1 = s at *
  by_cases hd : s.savedDay < s.today
  · rw [init_rollover cfg s hd] at hp; cases hp
  · rw [init_reward cfg s hd] at hp
    cases hc : s.cursor with
    | none => rw [reward_idle cfg s hc] at hp; cases hp
    | some k =>
      obtain ⟨vis, hv⟩ := reward_rewarded cfg s k hc
      obtain ⟨left, j, h1, h2, h3⟩ := hv.amounts p hp
      obtain ⟨g1, g2, _⟩ := hv.mem _ _ h1
      have hreg : ∃ r, registration p.acc (run cfg (genesis cfg bank asset base) ops).2 = some r := by
        cases hr : registration p.acc (run cfg (genesis cfg bank asset base) ops).2 with
        | none => rw [hinv.unreg hr] at g1; cases g1
        | some r => exact ⟨r, rfl⟩
      obtain ⟨r, hr⟩ := hreg
      obtain ⟨i1, i2⟩ := hinv.reg r hr
      rw [g1] at i2
      rcases i2 with i2 | ⟨_, i2⟩
      · simp only [Option.some.injEq] at i2
        exact ⟨r, j, hr, by omega, g2, by rw [← i2]; exact h3⟩
      · cases i2

/-- C30. A block credits each account with exactly its rewards that could be minted and changes no
other ADSC balance. -/
theorem C30_block_credits (cfg : Cfg) (s : State) (x : AccId) :
    (blockInit cfg s).1.asset.bal x = s.asset.bal x + paidTo x (blockInit cfg s).2 := by
  by_cases hd : s.savedDay < s.today
  · rw [init_rollover cfg s hd]; simp [paidTo]
  · rw [init_reward cfg s hd]
    cases hc : s.cursor with
    | none => rw [reward_idle cfg s hc]; simp [paidTo]
    | some k =>
      obtain ⟨vis, hv⟩ := reward_rewarded cfg s k hc
      exact hv.money x

def exCfg : Cfg := ⟨fun a => a + 1, 99, 1000⟩

def exBank : Bank :=
  { ed := 1, accts := (∅ : FMap AccId Acct).insert 99 ⟨1000, 0⟩
    frozen := fun _ => 0, pinned := fun _ => false, issuance := 1000 }

def exAsset : Asset := ⟨true, 10, 0, ∅, fun _ => false, true⟩

def allPriv : AccId → Privilege → Bool := fun _ _ => true

/-- One day passes. -/
def nextDay : Op := .external 86400000 exBank exAsset {} allPriv

/-- Three stakers for two days, one of them offline on the first day. -/
example :
    let ops := [nextDay, .init, .setPeriod 7 2, .addStaker 7 3, .addStaker 7 1, .addStaker 7 2,
      .setOffline (fun a => decide (a = 2)), .init, .init, .setOffline (fun _ => false),
      nextDay, .init, .init, .init, nextDay, .init, .init, .init, .init]
    let r := run exCfg (genesis exCfg exBank exAsset 100) ops
    registration 1 r.2 = some ⟨2, 2⟩ ∧ r.1.stakers.get 1 = none ∧ r.1.stakers.get 2 = some 0 ∧
    (r.2.filterMap fun e => match e.2.2 with | .paid l => some (l.map fun p => (p.acc, p.amount)) | _ => none) =
      [[], [(1, 100), (3, 100)], [], [], [(1, 50), (2, 100)], [(3, 50)], [], [(2, 50)], [], []] := by
  decide +kernel

/-- C30, finding: a reward that cannot be minted (here below the minimum balance of a new asset
account) is lost, but uses up one of the days. -/
theorem C30_failed_mint_uses_a_day :
    ∃ (ops : List Op) (r : Reg),
      let t := run exCfg (genesis exCfg exBank exAsset 8) ops
      registration 1 t.2 = some r ∧ r.count = 1 ∧ t.1.asset.bal 1 = 0 := by
  refine ⟨[nextDay, .init, .addStaker 7 1, .init], ⟨365, 1⟩, ?_⟩
  decide +kernel

/-! ### C64: every online staker is paid on each day with enough blocks -/

/-- Online stakers who are still to be treated today. -/
def pending (cfg : Cfg) (s : State) : List AccId :=
  match s.cursor with
  | none => []
  | some k => (s.stakers.entries.filter fun e => !s.offline e.1 && decide (k < cfg.key e.1)).map Prod.fst

theorem mem_pending {cfg : Cfg} {s : State} {k : Nat} (hc : s.cursor = some k) (a : AccId) :
    a ∈ pending cfg s ↔ ∃ p, s.stakers.get a = some p ∧ s.offline a = false ∧ k < cfg.key a := by
  unfold pending
  rw [hc]
  simp only [List.mem_map, List.mem_filter, Bool.and_eq_true, Bool.not_eq_true', decide_eq_true_eq]
  constructor
  · rintro ⟨⟨b, p⟩, ⟨h1, h2, h3⟩, rfl⟩
    exact ⟨p, (FMap.mem_entries_iff _ _ _).1 h1, h2, h3⟩
  · rintro ⟨p, h1, h2, h3⟩
    exact ⟨(a, p), ⟨(FMap.mem_entries_iff _ _ _).2 h1, h2, h3⟩, rfl⟩

theorem pending_nodup (cfg : Cfg) (s : State) : (pending cfg s).Nodup := by
  unfold pending
  split
  · exact List.nodup_nil
  · exact List.Nodup.sublist (List.filter_sublist.map _) s.stakers.nodup

/-- One block of rewards makes progress. -/
theorem pending_progress {cfg : Cfg} (hkey : Function.Injective cfg.key) {s s' : State} {pays : List Pay}
    {k : Nat} {vis : List (AccId × Nat)} (hc : s.cursor = some k) (h : Rewarded cfg s s' pays k vis) :
    (pending cfg s').length + vis.length ≤ (pending cfg s).length ∧
    (∀ a, a ∈ pending cfg s → a ∉ vis.map Prod.fst →
      a ∈ pending cfg s' ∧ vis.length = s.perBlock ∧ s'.stakers.get a = s.stakers.get a) := by
  have hcov : ∀ a, a ∈ pending cfg s → a ∉ vis.map Prod.fst →
      a ∈ pending cfg s' ∧ vis.length = s.perBlock ∧ s'.stakers.get a = s.stakers.get a := by
    intro a ha hn
    obtain ⟨p, h1, h2, h3⟩ := (mem_pending hc a).1 ha
    rcases h.cover a p h1 h2 h3 with h4 | ⟨_, h5, k', h6, h7⟩
    · exact absurd h4 hn
    · have hne : k' ≠ cfg.key a := by
        intro heq
        rw [h.cursor] at h6
        obtain ⟨⟨b, q⟩, hb, hbk⟩ := List.mem_map.1 (List.mem_of_getLast? h6)
        have : b = a := hkey (by simp only at hbk; omega)
        exact hn (List.mem_map.2 ⟨(b, q), hb, this⟩)
      refine ⟨(mem_pending h6 a).2 ⟨p, by rw [h.outside a hn]; exact h1, by rw [h.offline]; exact h2, by omega⟩,
        h5, h.outside a hn⟩
  refine ⟨?_, hcov⟩
  have hdisj : (pending cfg s' ++ vis.map Prod.fst).Nodup := by
    rw [List.nodup_append]
    refine ⟨pending_nodup cfg s', h.nodup, ?_⟩
    intro a ha b hb hab
    subst hab
    cases hc' : s'.cursor with
    | none => unfold pending at ha; rw [hc'] at ha; cases ha
    | some k' =>
      obtain ⟨_, _, _, h3⟩ := (mem_pending hc' a).1 ha
      obtain ⟨⟨b, p⟩, hp, hb'⟩ := List.mem_map.1 hb
      rw [show b = a from hb'] at hp
      have := (h.le_cursor hc').2 a p hp
      omega
  have hsub : (pending cfg s' ++ vis.map Prod.fst) ⊆ pending cfg s := by
    intro a ha
    rw [List.mem_append] at ha
    rw [mem_pending hc]
    rcases ha with ha | ha
    · cases hc' : s'.cursor with
      | none => unfold pending at ha; rw [hc'] at ha; cases ha
      | some k' =>
        obtain ⟨p, h1, h2, h3⟩ := (mem_pending hc' a).1 ha
        have hn : a ∉ vis.map Prod.fst := by
          intro hin
          obtain ⟨⟨b, q⟩, hq, hb'⟩ := List.mem_map.1 hin
          rw [show b = a from hb'] at hq
          have := (h.le_cursor hc').2 a q hq
          omega
        rw [h.outside a hn] at h1
        rw [h.offline] at h2
        have := (h.le_cursor hc').1
        exact ⟨p, h1, h2, by omega⟩
    · obtain ⟨⟨b, p⟩, hp, hb'⟩ := List.mem_map.1 ha
      rw [show b = a from hb'] at hp
      exact ⟨p, h.mem a p hp⟩
  have := (List.Nodup.subperm hdisj hsub).length_le
  rw [List.length_append, List.length_map] at this
  exact this

/-- A staker is treated before the end of the day. -/
theorem treated (cfg : Cfg) (hkey : Function.Injective cfg.key) (a : AccId) (ops : List Op) :
    ∀ (s : State) (p : Nat), s.stakers.get a = some p → a ∈ pending cfg s →
      s.savedDay = s.today → (run cfg s ops).1.today = s.today →
      (∀ w b, Op.addStaker w b ∉ ops) → (∀ w b i, Op.addStakerNft w b i ∉ ops) →
      (∀ f, Op.setOffline f ∉ ops) → (pending cfg s).length ≤ blocks ops * s.perBlock →
      (p ≠ 0 → ∃ s' l, (s', Op.init, Out.paid l) ∈ (run cfg s ops).2 ∧ s'.today = s.today ∧
        a ∈ l.map Pay.acc) ∧
      (p = 0 → (run cfg s ops).1.stakers.get a = none) := by
  -- an unregistered account stays unregistered
  have hgone : ∀ (ops : List Op) (s : State), s.stakers.get a = none →
      (∀ w b, Op.addStaker w b ∉ ops) → (∀ w b i, Op.addStakerNft w b i ∉ ops) →
      (run cfg s ops).1.stakers.get a = none := by
    intro ops
    induction ops with
    | nil => intro s h _ _; exact h
    | cons op ops ih =>
      intro s h h1 h2
      refine ih _ ?_ (fun w b hm => h1 w b (List.mem_cons_of_mem _ hm))
        (fun w b i hm => h2 w b i (List.mem_cons_of_mem _ hm))
      rcases step_shape cfg s op with ⟨hsm, _⟩ | ⟨rfl, hst⟩ | ⟨w, b, rfl, _⟩ | ⟨w, b, i, n, rfl, _⟩
      · rw [hsm.stakers]; exact h
      · rw [hst]
        by_cases hd : s.savedDay < s.today
        · rw [init_rollover cfg s hd]; exact h
        · rw [init_reward cfg s hd]
          cases hc : s.cursor with
          | none => rw [reward_idle cfg s hc]; exact h
          | some k =>
            obtain ⟨vis, hv⟩ := reward_rewarded cfg s k hc
            show (reward cfg s).1.stakers.get a = none
            rw [hv.outside a]
            · exact h
            · intro hin
              obtain ⟨⟨b, p⟩, hp, hb⟩ := List.mem_map.1 hin
              rw [show b = a from hb] at hp
              rw [(hv.mem a p hp).1] at h
              cases h
      · exact absurd List.mem_cons_self (h1 w b)
      · exact absurd List.mem_cons_self (h2 w b i)
  have hmono : ∀ (ops : List Op) (s : State), s.now ≤ (run cfg s ops).1.now := by
    intro ops
    induction ops with
    | nil => intro s; exact Nat.le_refl _
    | cons op ops ih =>
      intro s
      refine Nat.le_trans ?_ (ih (step cfg s op).1)
      rcases step_shape cfg s op with ⟨hsm, _⟩ | ⟨rfl, hst⟩ | ⟨w, b, rfl, _, hst⟩ | ⟨w, b, i, n, rfl, _, hst⟩
      · exact hsm.now
      · rw [hst]
        by_cases hd : s.savedDay < s.today
        · rw [init_rollover cfg s hd]; exact Nat.le_refl _
        · rw [init_reward cfg s hd]
          cases hc : s.cursor with
          | none => rw [reward_idle cfg s hc]; exact Nat.le_refl _
          | some k =>
            obtain ⟨vis, hv⟩ := reward_rewarded cfg s k hc
            exact Nat.le_of_eq hv.now.symm
      · rw [hst]; exact Nat.le_refl _
      · rw [hst]; exact Nat.le_refl _
  induction ops with
  | nil =>
    intro s p _ hpend _ _ _ _ _ hlen
    simp only [blocks, Nat.zero_mul, Nat.le_zero] at hlen
    rw [List.length_eq_zero_iff] at hlen
    rw [hlen] at hpend
    cases hpend
  | cons op ops ih =>
    intro s p hst hpend hday hend h1 h2 h3 hlen
    have h1' : ∀ w b, Op.addStaker w b ∉ ops := fun w b hm => h1 w b (List.mem_cons_of_mem _ hm)
    have h2' : ∀ w b i, Op.addStakerNft w b i ∉ ops := fun w b i hm => h2 w b i (List.mem_cons_of_mem _ hm)
    have h3' : ∀ f, Op.setOffline f ∉ ops := fun f hm => h3 f (List.mem_cons_of_mem _ hm)
    have htd : (step cfg s op).1.today = s.today := by
      have e1 : s.today ≤ (step cfg s op).1.today := today_mono (hmono [op] s)
      have e2 : (step cfg s op).1.today ≤ (run cfg s (op :: ops)).1.today := today_mono (hmono ops _)
      omega
    have hend' : (run cfg (step cfg s op).1 ops).1.today = (step cfg s op).1.today := by
      rw [htd]; exact hend
    rcases step_shape cfg s op with ⟨hsm, hop, hoff, _⟩ | ⟨rfl, hstep⟩ | ⟨w, b, rfl, _⟩ | ⟨w, b, i, n, rfl, _⟩
    · have hoff' : (step cfg s op).1.offline = s.offline := by
        rcases hoff with h | ⟨f, rfl⟩
        · exact h
        · exact absurd List.mem_cons_self (h3 f)
      have hp' : pending cfg (step cfg s op).1 = pending cfg s := by
        unfold pending; rw [hsm.cursor, hsm.stakers, hoff']
      have hbl : blocks (op :: ops) = blocks ops := by cases op <;> first | rfl | exact absurd rfl hop
      obtain ⟨g1, g2⟩ := ih (step cfg s op).1 p (by rw [hsm.stakers]; exact hst) (by rw [hp']; exact hpend)
        (by rw [hsm.savedDay, htd]; exact hday) hend' h1' h2' h3'
        (by rw [hp', hsm.perBlock, ← hbl]; exact hlen)
      refine ⟨?_, g2⟩
      intro hp
      obtain ⟨s', l, e1, e2, e3⟩ := g1 hp
      exact ⟨s', l, List.mem_cons_of_mem _ e1, by rw [e2, htd], e3⟩
    · have hnd : ¬ s.savedDay < s.today := by omega
      have hstep' : step cfg s .init = ((reward cfg s).1, .paid (reward cfg s).2) := by
        rw [hstep, init_reward cfg s hnd]
      obtain ⟨k, hc⟩ : ∃ k, s.cursor = some k := by
        cases hc : s.cursor with
        | none => unfold pending at hpend; rw [hc] at hpend; cases hpend
        | some k => exact ⟨k, rfl⟩
      obtain ⟨vis, hv⟩ := reward_rewarded cfg s k hc
      obtain ⟨hprog, hleft⟩ := pending_progress hkey hc hv
      by_cases hin : a ∈ vis.map Prod.fst
      · obtain ⟨⟨b, q⟩, hq, hb⟩ := List.mem_map.1 hin
        rw [show b = a from hb] at hq
        have hpq : q = p := by
          have := (hv.mem a q hq).1
          rw [hst] at this
          simpa using this.symm
        subst hpq
        refine ⟨?_, ?_⟩
        · intro hq0
          refine ⟨s, (reward cfg s).2, ?_, rfl, ?_⟩
          · simp only [run, hstep']; exact List.mem_cons_self
          · rw [hv.accs]; exact mem_paidOf.2 ⟨q, hq, hq0⟩
        · intro hq0
          refine hgone ops _ ?_ h1' h2'
          rw [hstep']
          show (reward cfg s).1.stakers.get a = none
          rw [hv.inside a q hq, if_pos hq0]
      · obtain ⟨i1, i2, i3⟩ := hleft a hpend hin
        rw [hstep'] at htd hend'
        simp only at htd hend'
        obtain ⟨g1, g2⟩ := ih (reward cfg s).1 p (by rw [i3]; exact hst) i1
          (by rw [hv.savedDay, htd]; exact hday) hend' h1' h2' h3'
          (by
            rw [hv.perBlock]
            have : blocks (Op.init :: ops) = blocks ops + 1 := rfl
            rw [this, Nat.add_mul, Nat.one_mul] at hlen
            omega)
        refine ⟨?_, ?_⟩
        · intro hp
          obtain ⟨s', l, e1, e2, e3⟩ := g1 hp
          refine ⟨s', l, ?_, by rw [e2, htd], e3⟩
          simp only [run, hstep']
          exact List.mem_cons_of_mem _ e1
        · intro hp
          simp only [run, hstep']
          exact g2 hp
    · exact absurd List.mem_cons_self (h1 w b)
    · exact absurd List.mem_cons_self (h2 w b i)

/-- C64. On a day with at least 17001 blocks (there are 17280 in a day) on which nobody is registered
or goes on- or offline, every online staker with days left gets a reward, and every online staker
without days left is removed. Other calls may come in any order. -/
theorem C64_everyone_paid_each_day (cfg : Cfg) (hkey : Function.Injective cfg.key)
    (hpos : ∀ a, 0 < cfg.key a) (s : State) (hnew : s.savedDay < s.today) (ops : List Op)
    (h1 : ∀ w b, Op.addStaker w b ∉ ops) (h2 : ∀ w b i, Op.addStakerNft w b i ∉ ops)
    (h3 : ∀ f, Op.setOffline f ∉ ops) (hblocks : 17000 ≤ blocks ops)
    (hday : (run cfg s (.init :: ops)).1.today = s.today)
    (a : AccId) (p : Nat) (ha : s.stakers.get a = some p) (hon : s.offline a = false) :
    (p ≠ 0 → ∃ s' l, (s', Op.init, Out.paid l) ∈ (run cfg s (.init :: ops)).2 ∧ s'.today = s.today ∧
      a ∈ l.map Pay.acc) ∧
    (p = 0 → (run cfg s (.init :: ops)).1.stakers.get a = none) := by
  have hst : step cfg s .init = (((blockInit cfg s).1), .paid (blockInit cfg s).2) := rfl
  rw [init_rollover cfg s hnew] at hst
  simp only [run, hst] at hday ⊢
  generalize hs1 : ({ s with savedDay := s.today, cursor := some 0, perBlock := s.stakers.entries.length / 17000 + 2 } : State) = s1 at *
  have hc : s1.cursor = some 0 := by rw [← hs1]
  have htd : s1.today = s.today := by rw [← hs1]; rfl
  have hlen : (pending cfg s1).length ≤ s.stakers.entries.length := by
    unfold pending
    rw [hc]
    simp only [List.length_map]
    rw [← hs1]
    exact List.length_filter_le _ _
  obtain ⟨g1, g2⟩ := treated cfg hkey a ops s1 p (by rw [← hs1]; exact ha)
    ((mem_pending hc a).2 ⟨p, by rw [← hs1]; exact ha, by rw [← hs1]; exact hon, hpos a⟩)
    (by rw [htd, ← hs1]) (by rw [htd]; exact hday) h1 h2 h3
    (by
      have hpb : s1.perBlock = s.stakers.entries.length / 17000 + 2 := by rw [← hs1]
      have : 17000 * s1.perBlock ≤ blocks ops * s1.perBlock := Nat.mul_le_mul_right _ hblocks
      rw [hpb] at this ⊢
      omega)
  refine ⟨?_, g2⟩
  intro hp
  obtain ⟨s', l, e1, e2, e3⟩ := g1 hp
  exact ⟨s', l, List.mem_cons_of_mem _ e1, by rw [e2, htd], e3⟩

/-- A day with few blocks leaves stakers without reward: with three stakers and one paying block, the
last is not paid. (So the number of blocks in C64 matters.) -/
example :
    let ops := [nextDay, .init, .addStaker 7 3, .addStaker 7 1, .addStaker 7 2, .init, nextDay, .init]
    let r := run exCfg (genesis exCfg exBank exAsset 100) ops
    paysOn 3 1 r.2 = 0 ∧ paysOn 2 1 r.2 = 1 ∧ r.1.stakers.get 3 = some 365 := by
  decide +kernel

/-! ### C65: total rewards are bounded for ever -/

/-- Invariant of the halving. -/
def HInv (T base0 : Balance) (minted base target : Balance) : Prop :=
  ∃ h, h ≤ base0.log2 + 1 ∧ base = base0 / 2 ^ h ∧ target = T * (h + 1) ∧ minted < target ∧ T * h ≤ minted

theorem perbillMul_le (p q x : Nat) : perbillMul p q x ≤ x := by
  unfold perbillMul
  apply divNearestDown_le _ _ _ (by decide)
  split
  · exact Nat.le_refl _
  · rename_i h
    simp only [not_or, Nat.not_le] at h
    apply Nat.div_le_of_le_mul
    exact Nat.mul_le_mul_right _ (Nat.le_of_lt h.2)

theorem div_pow_pos {b h : Nat} (hpos : 0 < b / 2 ^ h) : h ≤ b.log2 := by
  have hb : b ≠ 0 := by
    rintro rfl
    simp at hpos
  have : 2 ^ h ≤ b := by
    by_contra hc
    rw [Nat.div_eq_of_lt (by omega)] at hpos
    omega
  exact (Nat.le_log2 hb).2 this

theorem payReward_hinv (cfg : Cfg) (base0 period : Nat) (hbase : base0 ≤ cfg.initTarget)
    (hlim : cfg.initTarget * (base0.log2 + 3) < 2 ^ 128) (c : Scan) (a : AccId) (left : Nat)
    (h : HInv cfg.initTarget base0 c.minted c.base c.target) :
    HInv cfg.initTarget base0 (payReward cfg period c a left).minted (payReward cfg period c a left).base
      (payReward cfg period c a left).target := by
  unfold payReward
  simp only
  cases hm : c.asset.mint a (perbillMul left period c.base) with
  | error e => exact h
  | ok x =>
    obtain ⟨n, h1, h2, h3, h4, h5⟩ := h
    have hv := perbillMul_le left period c.base
    simp only
    split
    · rename_i hge
      simp only at hge ⊢
      have hpos : 0 < c.base := by omega
      have hn : n ≤ base0.log2 := div_pow_pos (by rw [← h2]; exact hpos)
      have htgt : cfg.initTarget * (n + 1) + cfg.initTarget = cfg.initTarget * (n + 1 + 1) := by
        rw [Nat.mul_add _ (n + 1)]; omega
      have hle : cfg.initTarget * (n + 1 + 1) ≤ cfg.initTarget * (base0.log2 + 3) :=
        Nat.mul_le_mul_left _ (by omega)
      have hmin : min (c.target + cfg.initTarget) (2 ^ 128 - 1) = cfg.initTarget * (n + 1 + 1) := by
        rw [h3, htgt]; omega
      have hb : c.base ≤ base0 := by rw [h2]; exact Nat.div_le_self _ _
      refine ⟨n + 1, by omega, ?_, hmin, ?_, ?_⟩
      · rw [h2, Nat.div_div_eq_div_mul, Nat.pow_succ]
      · rw [hmin]
        rw [h3] at h4
        omega
      · rw [← h3]; exact hge
    · rename_i hlt
      simp only at hlt ⊢
      exact ⟨n, h1, h2, h3, by omega, by omega⟩

theorem visitAll_hinv (cfg : Cfg) (base0 period : Nat) (hbase : base0 ≤ cfg.initTarget)
    (hlim : cfg.initTarget * (base0.log2 + 3) < 2 ^ 128) (l : List (AccId × Nat)) : ∀ c : Scan,
    HInv cfg.initTarget base0 c.minted c.base c.target →
    HInv cfg.initTarget base0 (visitAll cfg period c l).minted (visitAll cfg period c l).base
      (visitAll cfg period c l).target := by
  induction l with
  | nil => intro c h; exact h
  | cons e es ih =>
    intro c h
    refine ih _ ?_
    unfold visit
    simp only
    split
    · exact h
    · exact payReward_hinv cfg base0 period hbase hlim { c with lastKey := some (cfg.key e.1) } e.1 e.2 h

theorem reward_hinv (cfg : Cfg) (base0 : Nat) (hbase : base0 ≤ cfg.initTarget)
    (hlim : cfg.initTarget * (base0.log2 + 3) < 2 ^ 128) (s : State)
    (h : HInv cfg.initTarget base0 s.minted s.base s.target) :
    HInv cfg.initTarget base0 (reward cfg s).1.minted (reward cfg s).1.base (reward cfg s).1.target := by
  cases hc : s.cursor with
  | none => rw [reward_idle cfg s hc]; exact h
  | some k =>
    unfold reward
    rw [hc]
    simp only
    generalize hc0 : (⟨s.asset, s.minted, s.base, s.target, none, [], [], []⟩ : Scan) = c0
    obtain ⟨used, rest, _, hscan, _⟩ := scan_shape cfg s
      ((sortByKey cfg.key s.stakers.entries).filter (fun e => decide (k < cfg.key e.1))) s.perBlock c0
    rw [hscan]
    have hv := visitAll_hinv cfg base0 s.period hbase hlim (used.filter fun e => !s.offline e.1) c0
      (by rw [← hc0]; exact h)
    generalize visitAll cfg s.period c0 (used.filter fun e => !s.offline e.1) = c at *
    generalize hs1 : ({ s with asset := c.asset, minted := c.minted, base := c.base, target := c.target, cursor := c.lastKey } : State) = s1
    have h1 := (foldl_remove c.removed s1).1
    have h2 : ∀ (l : List AccId) (s : State), SameRest s (l.foldl subDay s) := by
      intro l
      induction l with
      | nil => intro s; exact SameRest.refl s
      | cons x xs ih => intro s; exact (subDay_shape s x).1.trans (ih _)
    have h3 := h1.trans (h2 c.subbed _)
    rw [h3.minted, h3.base, h3.target, ← hs1]
    exact hv

theorem step_hinv (cfg : Cfg) (base0 : Nat) (hbase : base0 ≤ cfg.initTarget)
    (hlim : cfg.initTarget * (base0.log2 + 3) < 2 ^ 128) (s : State) (op : Op)
    (h1 : ∀ w b, op ≠ .setBase w b) (h2 : ∀ w b, op ≠ .setTarget w b)
    (h : HInv cfg.initTarget base0 s.minted s.base s.target) :
    HInv cfg.initTarget base0 (step cfg s op).1.minted (step cfg s op).1.base (step cfg s op).1.target := by
  rcases step_shape cfg s op with ⟨hsm, _, _, hb, ht, _⟩ | ⟨rfl, hst⟩ | ⟨w, b, rfl, _, hst⟩ |
    ⟨w, b, i, n, rfl, _, hst⟩
  · have hb' : (step cfg s op).1.base = s.base := hb.resolve_right (fun ⟨w, b, e⟩ => h1 w b e)
    have ht' : (step cfg s op).1.target = s.target := ht.resolve_right (fun ⟨w, b, e⟩ => h2 w b e)
    rw [hsm.minted, hb', ht']; exact h
  · rw [hst]
    by_cases hd : s.savedDay < s.today
    · rw [init_rollover cfg s hd]; exact h
    · rw [init_reward cfg s hd]; exact reward_hinv cfg base0 hbase hlim s h
  · rw [hst]; exact h
  · rw [hst]; exact h

theorem step_minted (cfg : Cfg) (s : State) (op : Op) :
    (step cfg s op).1.minted = s.minted + rewardsMinted [(s, op, (step cfg s op).2)] := by
  have hz : op ≠ .init → ∀ o, rewardsMinted [(s, op, o)] = 0 := by
    intro h o; cases op <;> first | rfl | exact absurd rfl h
  rcases step_shape cfg s op with ⟨hsm, hop, _⟩ | ⟨rfl, hst⟩ | ⟨w, b, rfl, _, hst⟩ | ⟨w, b, i, n, rfl, _, hst⟩
  · rw [hz hop, hsm.minted]; rfl
  · rw [hst]
    show (blockInit cfg s).1.minted = s.minted + (paidAll (blockInit cfg s).2 + 0)
    by_cases hd : s.savedDay < s.today
    · rw [init_rollover cfg s hd]; simp [paidAll]
    · rw [init_reward cfg s hd]
      cases hc : s.cursor with
      | none => rw [reward_idle cfg s hc]; simp [paidAll]
      | some k =>
        obtain ⟨vis, hv⟩ := reward_rewarded cfg s k hc
        exact hv.minted
  · rw [hz (by simp), hst]; rfl
  · rw [hz (by simp), hst]; rfl

theorem rewardsMinted_cons (e : State × Op × Out) (tr : List (State × Op × Out)) :
    rewardsMinted (e :: tr) = rewardsMinted [e] + rewardsMinted tr := by
  obtain ⟨s, op, o⟩ := e
  cases op <;> cases o <;> simp [rewardsMinted]

/-- C65. While the administrators change neither the base reward nor the halving target, the total of
all ADSC ever minted as rewards is bounded: it stays below the initial target times (2 + binary
logarithm of the base reward), for every history. -/
theorem C65_total_rewards_bounded (cfg : Cfg) (bank : Bank) (asset : Asset) (base : Balance)
    (hpos : 0 < cfg.initTarget) (hbase : base ≤ cfg.initTarget)
    (hlim : cfg.initTarget * (base.log2 + 3) < 2 ^ 128) (ops : List Op)
    (h1 : ∀ w b, Op.setBase w b ∉ ops) (h2 : ∀ w b, Op.setTarget w b ∉ ops) :
    rewardsMinted (run cfg (genesis cfg bank asset base) ops).2 < cfg.initTarget * (base.log2 + 2) := by
  have key : ∀ (ops : List Op) (s : State), (∀ w b, Op.setBase w b ∉ ops) → (∀ w b, Op.setTarget w b ∉ ops) →
      HInv cfg.initTarget base s.minted s.base s.target →
      s.minted + rewardsMinted (run cfg s ops).2 < cfg.initTarget * (base.log2 + 2) := by
    intro ops
    induction ops with
    | nil =>
      intro s _ _ h
      obtain ⟨n, a1, a2, a3, a4, _⟩ := h
      have : cfg.initTarget * (n + 1) ≤ cfg.initTarget * (base.log2 + 2) := Nat.mul_le_mul_left _ (by omega)
      simp only [run, rewardsMinted]
      omega
    | cons op ops ih =>
      intro s g1 g2 h
      have hop1 : ∀ w b, op ≠ .setBase w b := fun w b e => g1 w b (by rw [e]; exact List.mem_cons_self)
      have hop2 : ∀ w b, op ≠ .setTarget w b := fun w b e => g2 w b (by rw [e]; exact List.mem_cons_self)
      have := ih (step cfg s op).1 (fun w b hm => g1 w b (List.mem_cons_of_mem _ hm))
        (fun w b hm => g2 w b (List.mem_cons_of_mem _ hm)) (step_hinv cfg base hbase hlim s op hop1 hop2 h)
      rw [step_minted] at this
      simp only [run]
      rw [rewardsMinted_cons]
      omega
  have := key ops (genesis cfg bank asset base) h1 h2
    ⟨0, Nat.zero_le _, by simp [genesis], by simp [genesis], by simpa [genesis] using hpos, by simp⟩
  simpa [genesis] using this

/-- With the constants of the chain (base reward 8235 and target 10^10, both with 18 decimals) the
bound is 74·10^10 ADSC. -/
example :
    let T := 10 ^ 10 * 10 ^ 18
    let base := 8235 * 10 ^ 18
    0 < T ∧ base ≤ T ∧ T * (base.log2 + 3) < 2 ^ 128 ∧ T * (base.log2 + 2) = 74 * 10 ^ 10 * 10 ^ 18 := by
  decide +kernel

/-! ### C31: swap -/

/-- C31. An accepted swap gives the caller exactly the offered amount times the exchange rate, rounded
down (capped at the largest 128-bit number before the division), out of the pool, and takes exactly the
offered ADSC from the caller into the pool; only if the rest falls below the minimum balance it is
taken too. No other account changes. -/
theorem C31_swap_exact (cfg : Cfg) (s : State) (who : AccId) (v dpr : Balance) (hne : who ≠ cfg.pool)
    (h : (step cfg s (.swap who v)).2 = .swapped dpr) :
    let s' := (step cfg s (.swap who v)).1
    0 < s.rate.1 ∧ dpr = min (v * s.rate.2) (2 ^ 128 - 1) / s.rate.1 ∧ v ≤ s.asset.bal who ∧
    (0 < v → s.asset.minBal ≤ s.asset.bal who - v → s'.asset.bal who + v = s.asset.bal who ∧
      s'.asset.bal cfg.pool = s.asset.bal cfg.pool + v) ∧
    (0 < v → s.asset.bal who - v < s.asset.minBal → s'.asset.bal who = 0 ∧
      s.asset.bal cfg.pool + v ≤ s'.asset.bal cfg.pool ∧
      s'.asset.bal cfg.pool ≤ s.asset.bal cfg.pool + s.asset.bal who) ∧
    (∀ x, x ≠ who → x ≠ cfg.pool → s'.asset.bal x = s.asset.bal x) ∧
    s'.bank.free who = s.bank.free who + dpr ∧ s'.bank.reserved who = s.bank.reserved who ∧
    s'.bank.free cfg.pool ≤ s.bank.free cfg.pool - dpr ∧ dpr ≤ s.bank.free cfg.pool ∧
    (s.bank.ed ≤ s.bank.free cfg.pool - dpr → s'.bank.free cfg.pool + dpr = s.bank.free cfg.pool) ∧
    (∀ x, x ≠ who → x ≠ cfg.pool → s'.bank.acct x = s.bank.acct x) := by
  intro s'
  rcases step_cases cfg s (.swap who v) with ⟨r, hb, hs⟩ | ⟨e, hb, hs⟩
  swap
  · rw [hs] at h; cases h
  simp only [body] at hb
  obtain ⟨⟨s2, d⟩, hr, hs2⟩ := map_ok hb
  have e : s' = s2 := by show (step cfg s (.swap who v)).1 = _; rw [hs, ← hs2]
  have ed : d = dpr := by rw [hs, ← hs2] at h; simpa using h
  unfold swap at hr
  split at hr
  · cases hr
  rename_i x hx
  split at hr
  · cases hr
  rename_i hrate
  simp only at hr
  obtain ⟨b, hb2, heq⟩ := map_ok hr
  have ht := liftBank_ok hb2
  have hxx := liftAsset_ok hx
  simp only [Prod.mk.injEq] at heq
  obtain ⟨heq1, heq2⟩ := heq
  rw [heq2, ed] at ht
  obtain ⟨a1, a2, a3, a4, a5⟩ := Asset.transfer_exact hxx hne
  obtain ⟨t1, t2, t3, t4, t5, t6⟩ := Bank.transfer_move ht (Ne.symm hne)
  rw [e, ← heq1]
  refine ⟨Nat.pos_of_ne_zero hrate, by rw [heq2, ed], a1, ?_, ?_, a4, t2, t3, t4, t1, t5, ?_⟩
  · intro hv hmin
    obtain ⟨b1, b2⟩ := a3 hv
    have hz : s.asset.dust who v = 0 := by unfold Asset.dust; rw [if_neg (by omega)]
    rw [hz] at b1 b2
    simp only
    refine ⟨by omega, ?_⟩
    rw [b2]; split <;> rfl
  · intro hv hmin
    obtain ⟨b1, b2⟩ := a3 hv
    have hz : s.asset.dust who v = s.asset.bal who - v := by unfold Asset.dust; rw [if_pos hmin]
    rw [hz] at b1 b2
    simp only
    refine ⟨by omega, ?_, ?_⟩
    · rw [b2]; split <;> omega
    · rw [b2]; split <;> omega
  · intro y h1 h2; exact t6 y h2 h1

/-- C31: a failing swap changes nothing. -/
theorem C31_swap_failed (cfg : Cfg) (s : State) (who : AccId) (v : Balance) (e : Err)
    (h : (step cfg s (.swap who v)).2 = .failed e) : (step cfg s (.swap who v)).1 = s := by
  rcases step_cases cfg s (.swap who v) with ⟨r, hb, hs⟩ | ⟨e', hb, hs⟩
  · simp only [body] at hb
    obtain ⟨x, _, hx⟩ := map_ok hb
    rw [hs, ← hx] at h
    cases h
  · rw [hs]

/-- A swap of 301 ADSC at rate 2:1 gives 150 DPR. -/
example :
    let x : Asset := { exAsset with accts := (∅ : FMap AccId Balance).insert 5 400, supply := 400 }
    let r := step exCfg (genesis exCfg exBank x 100) (.swap 5 301)
    r.2 = .swapped 150 ∧ r.1.asset.bal 5 = 99 ∧ r.1.asset.bal 99 = 301 ∧ r.1.bank.free 5 = 150 ∧
    r.1.bank.free 99 = 850 := by
  decide +kernel

/-- C31, finding: with an exchange rate of zero, which the administrator may set, a swap panics. -/
theorem C31_zero_rate_panics :
    ∃ (s : State) (who : AccId) (v : Balance), (step exCfg s (.swap who v)).2 = .failed .panic ∧
      (step exCfg { s with rate := (2, 1) } (.swap who v)).2 = .swapped 150 := by
  refine ⟨(run exCfg (genesis exCfg exBank exAsset 100) [.external 0 exBank
    { exAsset with accts := (∅ : FMap AccId Balance).insert 5 400, supply := 400 } {} allPriv,
    .setRate 7 (0, 1)]).1, 5, 301, ?_⟩
  decide +kernel

/-! ### C66: NFTs of stakers -/

/-- C66. At all times only registered stakers have an NFT on record. -/
theorem C66_nft_only_for_stakers_partial (cfg : Cfg) (bank : Bank) (asset : Asset) (base : Balance) (ops : List Op)
    (a : AccId) (i : Nat × Nat)
    (h : (run cfg (genesis cfg bank asset base) ops).1.nftOf.get a = some i) :
    ∃ p, (run cfg (genesis cfg bank asset base) ops).1.stakers.get a = some p := by
  have key : ∀ (ops : List Op) (s : State), (∀ a i, s.nftOf.get a = some i → ∃ p, s.stakers.get a = some p) →
      ∀ a i, (run cfg s ops).1.nftOf.get a = some i → ∃ p, (run cfg s ops).1.stakers.get a = some p := by
    intro ops
    induction ops with
    | nil => intro s h; exact h
    | cons op ops ih =>
      intro s h
      refine ih (step cfg s op).1 ?_
      intro a i
      rcases step_shape cfg s op with ⟨hsm, _⟩ | ⟨rfl, hst⟩ | ⟨w, b, rfl, _, hst⟩ | ⟨w, b, j, n, rfl, _, hst⟩
      · rw [hsm.nftOf, hsm.stakers]; exact h a i
      · rw [hst]
        by_cases hd : s.savedDay < s.today
        · rw [init_rollover cfg s hd]; exact h a i
        · rw [init_reward cfg s hd]
          cases hc : s.cursor with
          | none => rw [reward_idle cfg s hc]; exact h a i
          | some k =>
            obtain ⟨vis, hv⟩ := reward_rewarded cfg s k hc
            intro ha
            simp only at ha ⊢
            by_cases h0 : (a, 0) ∈ vis
            · rw [hv.nftIn a h0] at ha; cases ha
            · rw [hv.nftOut a h0] at ha
              obtain ⟨p, hp⟩ := h a i ha
              by_cases hin : a ∈ vis.map Prod.fst
              · obtain ⟨⟨b, q⟩, hq, hb⟩ := List.mem_map.1 hin
                rw [show b = a from hb] at hq
                rw [hv.inside a q hq]
                have hq0 : q ≠ 0 := by rintro rfl; exact h0 hq
                rw [if_neg hq0]
                exact ⟨_, rfl⟩
              · rw [hv.outside a hin]; exact ⟨p, hp⟩
      · rw [hst]
        intro ha
        simp only at ha ⊢
        rw [FMap.get_insert]
        split
        · exact ⟨_, rfl⟩
        · exact h a i ha
      · rw [hst]
        intro ha
        simp only [FMap.get_insert] at ha ⊢
        split
        · exact ⟨_, rfl⟩
        · rename_i hne
          rw [if_neg hne] at ha
          exact h a i ha
  exact key ops _ (fun a i h => by simp [genesis] at h) a i h

/-- C66. Registering with an NFT mints it to the account; the item was not owned by anybody before
(except possibly as the account's former NFT, which is burnt), and it is recorded for the account. -/
theorem C66_nft_minted (cfg : Cfg) (s : State) (w a : AccId) (i : Nat × Nat)
    (h : (step cfg s (.addStakerNft w a i)).2 = .done) :
    let s' := (step cfg s (.addStakerNft w a i)).1
    s.priv w .creditAdmin = true ∧ s.nfts.items.get i = none ∧ s'.nfts.items.get i = some a ∧
    s'.nftOf.get a = some i ∧
    (∀ old, s.nftOf.get a = some old → old ≠ i ∧ s'.nfts.items.get old = none) ∧
    (∀ j, j ≠ i → s.nftOf.get a ≠ some j → s'.nfts.items.get j = s.nfts.items.get j) := by
  intro s'
  rcases step_cases cfg s (.addStakerNft w a i) with ⟨r, hb, hs⟩ | ⟨e, hb, hs⟩
  swap
  · rw [hs] at h; cases h
  simp only [body] at hb
  obtain ⟨s2, hr, hs2⟩ := map_ok hb
  have e : s' = s2 := by show (step cfg s (.addStakerNft w a i)).1 = _; rw [hs, ← hs2]
  rw [e]
  unfold addStakerNft at hr
  split at hr
  · cases hr
  rename_i hp
  split at hr
  · cases hr
  rename_i n hdrop
  split at hr
  · cases hr
  rename_i n2 hadd
  cases hr
  unfold addNft at hadd
  split at hadd
  · cases hadd
  split at hadd
  · cases hadd
  rename_i hnot
  split at hadd
  · cases hadd
  cases hadd
  have hni : n.items.get i = none := by
    cases hg : n.items.get i with
    | none => rfl
    | some y => exact absurd (by simp [FMap.contains, hg]) hnot
  unfold dropOldNft at hdrop
  cases hold : s.nftOf.get a with
  | none =>
    rw [hold] at hdrop
    cases hdrop
    refine ⟨by simpa using hp, hni, by simp, by simp, (fun old ho => by cases ho), ?_⟩
    intro j hj _
    simp only [FMap.get_insert_ne _ _ hj]
  | some old =>
    rw [hold] at hdrop
    simp only at hdrop
    split at hdrop
    · cases hdrop
    rename_i hne
    unfold removeNft at hdrop
    split at hdrop
    · cases hdrop
    rename_i n3 hrm
    cases hdrop
    split at hrm
    · cases hrm
    split at hrm
    · cases hrm
    split at hrm
    · cases hrm
    cases hrm
    simp only [FMap.get_erase_ne _ (Ne.symm hne)] at hni
    refine ⟨by simpa using hp, hni, by simp, by simp, ?_, ?_⟩
    · intro o ho
      cases ho
      refine ⟨hne, ?_⟩
      simp only [FMap.get_insert_ne _ _ hne, FMap.get_erase_self]
    · intro j hj hj2
      simp only [FMap.get_insert_ne _ _ hj]
      rw [FMap.get_erase_ne]
      rintro rfl
      exact hj2 rfl

/-- C66, finding: the record can be outdated. A staker burns their NFT, the same item is minted to a
second staker; when the first staker's days are over, the NFT of the second is burnt. -/
theorem C66_foreign_nft_burnt :
    ∃ (s : State), s.nfts.items.get (1, 1) = some 2 ∧ s.nftOf.get 2 = some (1, 1) ∧
      (step exCfg s .init).1.nfts.items.get (1, 1) = none ∧
      (step exCfg s .init).1.nftOf.get 2 = some (1, 1) := by
  refine ⟨(run exCfg (genesis exCfg exBank exAsset 100) [nextDay, .setPeriod 7 1,
    .addStakerNft 7 1 (1, 1), .init, .init, nextDay, .addStakerNft 7 2 (1, 1), .init]).1, ?_⟩
  decide +kernel

end Verif.Adsc
