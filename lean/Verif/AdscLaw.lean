import Verif.AdscProperties

/-
C86: the rewards follow the halving schedule exactly.
C87: the administration of ADSC: who may call what, and what each call does.
-/

namespace Verif.Adsc

open Verif.UserPrivileges (Privilege)
open Verif.Credit (perbillMul)

/-! ### C86: the schedule of the rewards -/

theorem HInv.base_eq {T base0 m b t : Nat} (hT : 0 < T) (h : HInv T base0 m b t) :
    b = base0 / 2 ^ (m / T) ∧ t = T * (m / T + 1) := by
  obtain ⟨n, _, h2, h3, h4, h5⟩ := h
  have : m / T = n := by
    rw [h3] at h4
    rw [Nat.div_eq_iff hT]
    rw [Nat.mul_add, Nat.mul_one] at h4
    rw [Nat.mul_comm n T]
    constructor <;> omega
  rw [this]; exact ⟨h2, h3⟩

/-- Rewards of the loop, each with the sum of those before it. -/
theorem visitAll_schedule (cfg : Cfg) (base0 period : Nat) (hT : 0 < cfg.initTarget)
    (hbase : base0 ≤ cfg.initTarget) (hlim : cfg.initTarget * (base0.log2 + 3) < 2 ^ 128)
    (l : List (AccId × Nat)) : ∀ c : Scan, HInv cfg.initTarget base0 c.minted c.base c.target →
    ∃ new, (visitAll cfg period c l).pays = c.pays ++ new ∧
      ∀ l1 p l2, new = l1 ++ p :: l2 → ∃ left, (p.acc, left) ∈ l ∧
        p.amount = perbillMul left period (base0 / 2 ^ ((c.minted + paidAll l1) / cfg.initTarget)) := by
  induction l with
  | nil => intro c _; exact ⟨[], by simp [visitAll], by intro l1 p l2 h; simp at h⟩
  | cons e es ih =>
    intro c h
    have hv : visitAll cfg period c (e :: es) = visitAll cfg period (visit cfg period c e.1 e.2) es := rfl
    rw [hv]
    by_cases h0 : e.2 = 0
    · have hvis : visit cfg period c e.1 e.2 =
          { c with lastKey := some (cfg.key e.1), removed := c.removed ++ [e.1] } := by
        simp [visit, h0]
      rw [hvis]
      obtain ⟨new, h1, h2⟩ := ih { c with lastKey := some (cfg.key e.1), removed := c.removed ++ [e.1] } h
      refine ⟨new, h1, ?_⟩
      intro l1 p l2 hs
      obtain ⟨left, q1, q2⟩ := h2 l1 p l2 hs
      exact ⟨left, List.mem_cons_of_mem _ q1, q2⟩
    · obtain ⟨p1, p2, p3, ok, p4, p5, p6, p7, p8⟩ :=
        payReward_fields cfg period { c with lastKey := some (cfg.key e.1) } e.1 e.2
      have hh := payReward_hinv cfg base0 period hbase hlim { c with lastKey := some (cfg.key e.1) } e.1 e.2 h
      generalize hc : payReward cfg period { c with lastKey := some (cfg.key e.1) } e.1 e.2 = c1 at *
      have hvis : visit cfg period c e.1 e.2 = { c1 with subbed := c1.subbed ++ [e.1] } := by
        simp [visit, h0, hc]
      rw [hvis]
      simp only at p4 p5
      obtain ⟨new, h1, h2⟩ := ih { c1 with subbed := c1.subbed ++ [e.1] } hh
      simp only at h1 h2
      refine ⟨⟨e.1, perbillMul e.2 period c.base, ok⟩ :: new, by rw [h1, p4, List.append_assoc]; rfl, ?_⟩
      intro l1 p l2 hs
      cases l1 with
      | nil =>
        simp only [List.nil_append, List.cons.injEq] at hs
        refine ⟨e.2, ?_, ?_⟩
        · rw [← hs.1]; simp
        · rw [← hs.1]
          show perbillMul e.2 period c.base = _
          rw [(HInv.base_eq hT h).1]
          simp [paidAll]
      | cons r l1 =>
        simp only [List.cons_append, List.cons.injEq] at hs
        obtain ⟨left, q1, q2⟩ := h2 l1 p l2 hs.2
        refine ⟨left, List.mem_cons_of_mem _ q1, ?_⟩
        rw [q2, p5, ← hs.1]
        simp only [paidAll, List.map_cons, List.sum_cons, Nat.add_assoc]

theorem reward_schedule (cfg : Cfg) (base0 : Nat) (hT : 0 < cfg.initTarget)
    (hbase : base0 ≤ cfg.initTarget) (hlim : cfg.initTarget * (base0.log2 + 3) < 2 ^ 128) (s : State)
    (h : HInv cfg.initTarget base0 s.minted s.base s.target) (l1 : List Pay) (p : Pay) (l2 : List Pay)
    (hp : (reward cfg s).2 = l1 ++ p :: l2) :
    ∃ left, s.stakers.get p.acc = some left ∧
      p.amount = perbillMul left s.period (base0 / 2 ^ ((s.minted + paidAll l1) / cfg.initTarget)) := by
  cases hc : s.cursor with
  | none => rw [reward_idle cfg s hc] at hp; simp at hp
  | some k =>
    unfold reward at hp
    rw [hc] at hp
    simp only at hp
    generalize hc0 : (⟨s.asset, s.minted, s.base, s.target, none, [], [], []⟩ : Scan) = c0 at hp
    obtain ⟨used, rest, hsp, hscan, _⟩ := scan_shape cfg s
      ((sortByKey cfg.key s.stakers.entries).filter (fun e => decide (k < cfg.key e.1))) s.perBlock c0
    rw [hscan] at hp
    obtain ⟨new, g1, g2⟩ := visitAll_schedule cfg base0 s.period hT hbase hlim
      (used.filter fun e => !s.offline e.1) c0 (by rw [← hc0]; exact h)
    rw [g1] at hp
    have hc0p : c0.pays = [] := by rw [← hc0]
    have hc0m : c0.minted = s.minted := by rw [← hc0]
    rw [hc0p, List.nil_append] at hp
    obtain ⟨left, q1, q2⟩ := g2 l1 p l2 hp
    refine ⟨left, ?_, by rw [q2, hc0m]⟩
    rw [← FMap.mem_entries_iff]
    refine (sortByKey_perm cfg.key s.stakers.entries).mem_iff.1 ?_
    have h1 := (List.mem_filter.1 q1).1
    have h2 : (p.acc, left) ∈ used ++ rest := List.mem_append.2 (Or.inl h1)
    rw [← hsp] at h2
    exact (List.mem_filter.1 h2).1

/-- The trace at one point. -/
theorem run_at (cfg : Cfg) (base0 : Nat) (hbase : base0 ≤ cfg.initTarget)
    (hlim : cfg.initTarget * (base0.log2 + 3) < 2 ^ 128) (ops : List Op) : ∀ (s : State),
    (∀ w b, Op.setBase w b ∉ ops) → (∀ w b, Op.setTarget w b ∉ ops) →
    HInv cfg.initTarget base0 s.minted s.base s.target →
    ∀ t1 s1 op o t2, (run cfg s ops).2 = t1 ++ (s1, op, o) :: t2 →
      s1.minted = s.minted + rewardsMinted t1 ∧ HInv cfg.initTarget base0 s1.minted s1.base s1.target ∧
      o = (step cfg s1 op).2 := by
  induction ops with
  | nil => intro s _ _ _ t1 s1 op o t2 h; simp [run] at h
  | cons x ops ih =>
    intro s g1 g2 h t1 s1 op o t2 ht
    have hop1 : ∀ w b, x ≠ .setBase w b := fun w b e => g1 w b (by rw [e]; exact List.mem_cons_self)
    have hop2 : ∀ w b, x ≠ .setTarget w b := fun w b e => g2 w b (by rw [e]; exact List.mem_cons_self)
    simp only [run] at ht
    cases t1 with
    | nil =>
      simp only [List.nil_append, List.cons.injEq, Prod.mk.injEq] at ht
      obtain ⟨⟨e1, e2, e3⟩, _⟩ := ht
      subst e1 e2 e3
      exact ⟨rfl, h, rfl⟩
    | cons e t1 =>
      simp only [List.cons_append, List.cons.injEq] at ht
      obtain ⟨a1, a2, a3⟩ := ih (step cfg s x).1 (fun w b hm => g1 w b (List.mem_cons_of_mem _ hm))
        (fun w b hm => g2 w b (List.mem_cons_of_mem _ hm)) (step_hinv cfg base0 hbase hlim s x hop1 hop2 h)
        t1 s1 op o t2 ht.2
      refine ⟨?_, a2, a3⟩
      rw [a1, step_minted, ← ht.1, rewardsMinted_cons (s, x, (step cfg s x).2) t1]
      omega

theorem genesis_hinv (cfg : Cfg) (bank : Bank) (asset : Asset) (base : Balance)
    (hpos : 0 < cfg.initTarget) :
    HInv cfg.initTarget base (genesis cfg bank asset base).minted (genesis cfg bank asset base).base
      (genesis cfg bank asset base).target :=
  ⟨0, Nat.zero_le _, by simp [genesis], by simp [genesis], by simpa [genesis] using hpos, by simp⟩

/-- C86. While the administrators change neither the base reward nor the halving target, every daily
reward is determined by what was minted before: the initial base reward halved once for every full
target reached by the rewards minted before it (in earlier blocks and earlier in the same block), times
the share of the staker's remaining days in the reward period. -/
theorem C86_amount_exact (cfg : Cfg) (bank : Bank) (asset : Asset) (base : Balance)
    (hpos : 0 < cfg.initTarget) (hbase : base ≤ cfg.initTarget)
    (hlim : cfg.initTarget * (base.log2 + 3) < 2 ^ 128) (ops : List Op)
    (h1 : ∀ w b, Op.setBase w b ∉ ops) (h2 : ∀ w b, Op.setTarget w b ∉ ops)
    (t1 t2 : List (State × Op × Out)) (s : State) (l1 l2 : List Pay) (p : Pay)
    (ht : (run cfg (genesis cfg bank asset base) ops).2 =
      t1 ++ (s, .init, .paid (l1 ++ p :: l2)) :: t2) :
    ∃ left, s.stakers.get p.acc = some left ∧
      p.amount = perbillMul left s.period
        (base / 2 ^ ((rewardsMinted t1 + paidAll l1) / cfg.initTarget)) := by
  obtain ⟨a1, a2, a3⟩ := run_at cfg base hbase hlim ops _ h1 h2 (genesis_hinv cfg bank asset base hpos)
    t1 s .init _ t2 ht
  have a1' : s.minted = rewardsMinted t1 := by rw [a1]; simp [genesis]
  have a3' : l1 ++ p :: l2 = (blockInit cfg s).2 := by
    have : (step cfg s .init).2 = .paid (blockInit cfg s).2 := rfl
    rw [this] at a3
    exact Out.paid.inj a3
  by_cases hd : s.savedDay < s.today
  · rw [init_rollover cfg s hd] at a3'; simp at a3'
  · rw [init_reward cfg s hd] at a3'
    obtain ⟨left, q1, q2⟩ := reward_schedule cfg base hpos hbase hlim s a2 l1 p l2 a3'.symm
    exact ⟨left, q1, by rw [q2, a1']⟩

theorem run_end (cfg : Cfg) (base0 : Nat) (hbase : base0 ≤ cfg.initTarget)
    (hlim : cfg.initTarget * (base0.log2 + 3) < 2 ^ 128) (ops : List Op) : ∀ (s : State),
    (∀ w b, Op.setBase w b ∉ ops) → (∀ w b, Op.setTarget w b ∉ ops) →
    HInv cfg.initTarget base0 s.minted s.base s.target →
    (run cfg s ops).1.minted = s.minted + rewardsMinted (run cfg s ops).2 ∧
    HInv cfg.initTarget base0 (run cfg s ops).1.minted (run cfg s ops).1.base (run cfg s ops).1.target := by
  induction ops with
  | nil => intro s _ _ h; exact ⟨rfl, h⟩
  | cons x ops ih =>
    intro s g1 g2 h
    have hop1 : ∀ w b, x ≠ .setBase w b := fun w b e => g1 w b (by rw [e]; exact List.mem_cons_self)
    have hop2 : ∀ w b, x ≠ .setTarget w b := fun w b e => g2 w b (by rw [e]; exact List.mem_cons_self)
    obtain ⟨a1, a2⟩ := ih (step cfg s x).1 (fun w b hm => g1 w b (List.mem_cons_of_mem _ hm))
      (fun w b hm => g2 w b (List.mem_cons_of_mem _ hm)) (step_hinv cfg base0 hbase hlim s x hop1 hop2 h)
    refine ⟨?_, a2⟩
    simp only [run]
    rw [a1, step_minted, rewardsMinted_cons (s, x, (step cfg s x).2) (run cfg (step cfg s x).1 ops).2]
    omega

/-- C86, the stored values: the base reward has been halved exactly once for every full target minted,
and the next halving comes when the rewards reach the next multiple of the target. -/
theorem C86_halvings (cfg : Cfg) (bank : Bank) (asset : Asset) (base : Balance)
    (hpos : 0 < cfg.initTarget) (hbase : base ≤ cfg.initTarget)
    (hlim : cfg.initTarget * (base.log2 + 3) < 2 ^ 128) (ops : List Op)
    (h1 : ∀ w b, Op.setBase w b ∉ ops) (h2 : ∀ w b, Op.setTarget w b ∉ ops) :
    let r := run cfg (genesis cfg bank asset base) ops
    let m := rewardsMinted r.2
    r.1.minted = m ∧ r.1.base = base / 2 ^ (m / cfg.initTarget) ∧
    r.1.target = cfg.initTarget * (m / cfg.initTarget + 1) := by
  obtain ⟨a1, a2⟩ := run_end cfg base hbase hlim ops _ h1 h2 (genesis_hinv cfg bank asset base hpos)
  have hm : (genesis cfg bank asset base).minted = 0 := by simp [genesis]
  rw [hm, Nat.zero_add] at a1
  obtain ⟨b1, b2⟩ := a2.base_eq hpos
  rw [a1] at b1 b2
  exact ⟨a1, b1, b2⟩

/-- Rewards of 100 a day and a target of 1000, three stakers: on the fourth day the target is
reached with the second staker, and the third gets half. -/
example :
    let day : List Op := [nextDay, .init, .init, .init]
    let ops := [nextDay, .init, .addStaker 7 3, .addStaker 7 1, .addStaker 7 2] ++ day ++ day ++ day ++ day
    let r := run exCfg (genesis exCfg exBank exAsset 100) ops
    rewardsMinted r.2 = 1145 ∧ r.1.base = 50 ∧ r.1.target = 2000 := by
  decide +kernel

/-! ### C87: administration -/

/-- The caller of a call reserved to credit administrators. -/
def adminCaller : Op → Option AccId
  | .addStaker w _ => some w
  | .addStakerNft w _ _ => some w
  | .setPeriod w _ => some w
  | .setTarget w _ => some w
  | .setBase w _ => some w
  | .setRate w _ => some w
  | .bridgeBurn w _ _ => some w
  | .bridgeMint w _ _ => some w
  | _ => none

/-- C87. Registering stakers, setting period, target, base reward and exchange rate, and bridging in
either direction fail without effect for callers without the credit administrator's privilege; so does
funding the pool for anyone but root. -/
theorem C87_guards (cfg : Cfg) (s : State) (op : Op) :
    (∀ w, adminCaller op = some w → s.priv w .creditAdmin = false →
      step cfg s op = (s, .failed .notAdmin)) ∧
    (∀ v, op = .addPool false v → step cfg s op = (s, .failed .badOrigin)) := by
  constructor
  · intro w h hp
    cases op <;> simp only [adminCaller, Option.some.injEq, reduceCtorEq] at h
    all_goals
      subst h
      simp [step, body, addStaker, addStakerNft, setPeriod, setTarget, setBase, setRate, bridgeBurn,
        bridgeMint, hp, Except.map]
  · rintro v rfl
    rfl

/-- C87. With the privilege, the settings are replaced by the value given and nothing else changes; a
registration gives the account the full period. -/
theorem C87_settings (cfg : Cfg) (s : State) (w : AccId) (hp : s.priv w .creditAdmin = true) :
    (∀ n, step cfg s (.setPeriod w n) = ({ s with period := n }, .done)) ∧
    (∀ t, step cfg s (.setTarget w t) = ({ s with target := t }, .done)) ∧
    (∀ b, step cfg s (.setBase w b) = ({ s with base := b }, .done)) ∧
    (∀ r, step cfg s (.setRate w r) = ({ s with rate := r }, .done)) ∧
    (∀ a, step cfg s (.addStaker w a) = ({ s with stakers := s.stakers.insert a s.period }, .done)) := by
  refine ⟨?_, ?_, ?_, ?_, ?_⟩ <;> intro x <;>
    simp [step, body, addStaker, setPeriod, setTarget, setBase, setRate, hp, Except.map]

/-- C87. Only these calls change the period, the exchange rate and the target and base reward (the
latter two also change by the halving in the daily payment), and only a registration or the payments
change the list of stakers. -/
theorem C87_only (cfg : Cfg) (s : State) (op : Op) :
    let s' := (step cfg s op).1
    (s'.period ≠ s.period → ∃ w n, op = .setPeriod w n ∧ s.priv w .creditAdmin = true) ∧
    (s'.rate ≠ s.rate → ∃ w r, op = .setRate w r ∧ s.priv w .creditAdmin = true) ∧
    (s'.base ≠ s.base → op = .init ∨ ∃ w b, op = .setBase w b ∧ s.priv w .creditAdmin = true) ∧
    (s'.target ≠ s.target → op = .init ∨ ∃ w t, op = .setTarget w t ∧ s.priv w .creditAdmin = true) ∧
    (∀ a, s'.stakers.get a ≠ s.stakers.get a → op = .init ∨
      ∃ w, s.priv w .creditAdmin = true ∧ (op = .addStaker w a ∨ ∃ i, op = .addStakerNft w a i)) ∧
    (∀ a, s.stakers.get a = none → s'.stakers.get a ≠ none → ∃ w, s.priv w .creditAdmin = true ∧
      (op = .addStaker w a ∨ ∃ i, op = .addStakerNft w a i)) := by
  intro s'
  have hpriv : ∀ w, adminCaller op = some w → s.priv w .creditAdmin = true ∨ s' = s := by
    intro w h
    cases hp : s.priv w .creditAdmin with
    | true => exact Or.inl rfl
    | false => right; show (step cfg s op).1 = s; rw [(C87_guards cfg s op).1 w h hp]
  by_cases hse : s' = s
  · rw [hse]
    refine ⟨fun h => absurd rfl h, fun h => absurd rfl h, fun h => absurd rfl h, fun h => absurd rfl h,
      fun _ h => absurd rfl h, fun _ h h' => absurd h h'⟩
  have hpriv' : ∀ w, adminCaller op = some w → s.priv w .creditAdmin = true :=
    fun w h => (hpriv w h).resolve_right hse
  have noChange : s'.period = s.period → s'.rate = s.rate → s'.base = s.base → s'.target = s.target →
      s'.stakers = s.stakers → _ := fun h1 h2 h3 h4 h5 =>
    (⟨fun h => absurd h1 h, fun h => absurd h2 h, fun h => absurd h3 h, fun h => absurd h4 h,
      fun a h => absurd (by rw [h5]) h, fun a h h' => absurd (by rw [h5]; exact h) h'⟩ :
      (s'.period ≠ s.period → ∃ w n, op = .setPeriod w n ∧ s.priv w .creditAdmin = true) ∧
    (s'.rate ≠ s.rate → ∃ w r, op = .setRate w r ∧ s.priv w .creditAdmin = true) ∧
    (s'.base ≠ s.base → op = .init ∨ ∃ w b, op = .setBase w b ∧ s.priv w .creditAdmin = true) ∧
    (s'.target ≠ s.target → op = .init ∨ ∃ w t, op = .setTarget w t ∧ s.priv w .creditAdmin = true) ∧
    (∀ a, s'.stakers.get a ≠ s.stakers.get a → op = .init ∨
      ∃ w, s.priv w .creditAdmin = true ∧ (op = .addStaker w a ∨ ∃ i, op = .addStakerNft w a i)) ∧
    (∀ a, s.stakers.get a = none → s'.stakers.get a ≠ none → ∃ w, s.priv w .creditAdmin = true ∧
      (op = .addStaker w a ∨ ∃ i, op = .addStakerNft w a i)))
  rcases step_cases cfg s op with ⟨r, hb, hs⟩ | ⟨e, hb, hs⟩
  rotate_left
  · exact absurd (by show (step cfg s op).1 = s; rw [hs]) hse
  have es : s' = r.1 := by show (step cfg s op).1 = _; rw [hs]
  cases op with
  | setPeriod w n =>
    have hp := hpriv' w rfl
    have : s' = { s with period := n } := by show (step cfg s _).1 = _; rw [(C87_settings cfg s w hp).1]
    rw [this]
    exact ⟨fun _ => ⟨w, n, rfl, hp⟩, fun h => absurd rfl h, fun h => absurd rfl h, fun h => absurd rfl h,
      fun _ h => absurd rfl h, fun _ h h' => absurd h h'⟩
  | setTarget w n =>
    have hp := hpriv' w rfl
    have : s' = { s with target := n } := by show (step cfg s _).1 = _; rw [(C87_settings cfg s w hp).2.1]
    rw [this]
    exact ⟨fun h => absurd rfl h, fun h => absurd rfl h, fun h => absurd rfl h, fun _ => Or.inr ⟨w, n, rfl, hp⟩,
      fun _ h => absurd rfl h, fun _ h h' => absurd h h'⟩
  | setBase w n =>
    have hp := hpriv' w rfl
    have : s' = { s with base := n } := by show (step cfg s _).1 = _; rw [(C87_settings cfg s w hp).2.2.1]
    rw [this]
    exact ⟨fun h => absurd rfl h, fun h => absurd rfl h, fun _ => Or.inr ⟨w, n, rfl, hp⟩, fun h => absurd rfl h,
      fun _ h => absurd rfl h, fun _ h h' => absurd h h'⟩
  | setRate w n =>
    have hp := hpriv' w rfl
    have : s' = { s with rate := n } := by show (step cfg s _).1 = _; rw [(C87_settings cfg s w hp).2.2.2.1]
    rw [this]
    exact ⟨fun h => absurd rfl h, fun _ => ⟨w, n, rfl, hp⟩, fun h => absurd rfl h, fun h => absurd rfl h,
      fun _ h => absurd rfl h, fun _ h h' => absurd h h'⟩
  | addStaker w a =>
    have hp := hpriv' w rfl
    have : s' = { s with stakers := s.stakers.insert a s.period } := by
      show (step cfg s _).1 = _; rw [(C87_settings cfg s w hp).2.2.2.2]
    rw [this]
    refine ⟨fun h => absurd rfl h, fun h => absurd rfl h, fun h => absurd rfl h, fun h => absurd rfl h, ?_, ?_⟩
    · intro b h
      by_cases hb : b = a
      · subst hb; exact Or.inr ⟨w, hp, Or.inl rfl⟩
      · exact absurd (FMap.get_insert_ne _ _ hb) h
    · intro b h h'
      by_cases hb : b = a
      · subst hb; exact ⟨w, hp, Or.inl rfl⟩
      · rw [show (s.stakers.insert a s.period).get b = s.stakers.get b from FMap.get_insert_ne _ _ hb] at h'
        exact absurd h h'
  | addStakerNft w a i =>
    have hp := hpriv' w rfl
    simp only [body] at hb
    obtain ⟨s2, hr, hs2⟩ := map_ok hb
    obtain ⟨_, n, hn⟩ := addStakerNft_ok hr
    have : s' = { s with stakers := s.stakers.insert a s.period, nftOf := s.nftOf.insert a i, nfts := n } := by
      rw [es, ← hs2]; exact hn
    rw [this]
    refine ⟨fun h => absurd rfl h, fun h => absurd rfl h, fun h => absurd rfl h, fun h => absurd rfl h, ?_, ?_⟩
    · intro b h
      by_cases hb : b = a
      · subst hb; exact Or.inr ⟨w, hp, Or.inr ⟨i, rfl⟩⟩
      · exact absurd (FMap.get_insert_ne _ _ hb) h
    · intro b h h'
      by_cases hb : b = a
      · subst hb; exact ⟨w, hp, Or.inr ⟨i, rfl⟩⟩
      · rw [show (s.stakers.insert a s.period).get b = s.stakers.get b from FMap.get_insert_ne _ _ hb] at h'
        exact absurd h h'
  | bridgeBurn w a v =>
    simp only [body] at hb
    obtain ⟨s2, hr, hs2⟩ := map_ok hb
    unfold bridgeBurn at hr
    split at hr
    · cases hr
    obtain ⟨x, _, hx⟩ := map_ok hr
    have : s' = { s with asset := x } := by rw [es, ← hs2, ← hx]
    rw [this] at noChange ⊢
    exact noChange rfl rfl rfl rfl rfl
  | bridgeMint w a v =>
    simp only [body] at hb
    obtain ⟨s2, hr, hs2⟩ := map_ok hb
    unfold bridgeMint at hr
    split at hr
    · cases hr
    obtain ⟨x, _, hx⟩ := map_ok hr
    have : s' = { s with asset := x } := by rw [es, ← hs2, ← hx]
    rw [this] at noChange ⊢
    exact noChange rfl rfl rfl rfl rfl
  | swap w v =>
    simp only [body] at hb
    obtain ⟨⟨s2, d⟩, hr, hs2⟩ := map_ok hb
    unfold swap at hr
    split at hr
    · cases hr
    rename_i x hx
    split at hr
    · cases hr
    obtain ⟨b, _, heq⟩ := map_ok hr
    simp only [Prod.mk.injEq] at heq
    have : s' = { s with asset := x, bank := b } := by rw [es, ← hs2, ← heq.1]
    rw [this] at noChange ⊢
    exact noChange rfl rfl rfl rfl rfl
  | addPool r v =>
    simp only [body] at hb
    obtain ⟨s2, hr, hs2⟩ := map_ok hb
    unfold addPool at hr
    split at hr
    · cases hr
    injection hr with hr
    rw [es, ← hs2, ← hr] at noChange ⊢
    exact noChange rfl rfl rfl rfl rfl
  | external dt b x n p =>
    exact noChange rfl rfl rfl rfl rfl
  | setOffline f =>
    exact noChange rfl rfl rfl rfl rfl
  | init =>
    have hm : s'.period = s.period ∧ s'.rate = s.rate ∧
        ∀ a, s.stakers.get a = none → s'.stakers.get a = none := by
      show (blockInit cfg s).1.period = _ ∧ (blockInit cfg s).1.rate = _ ∧
        ∀ a, s.stakers.get a = none → (blockInit cfg s).1.stakers.get a = none
      by_cases hd : s.savedDay < s.today
      · rw [init_rollover cfg s hd]; exact ⟨rfl, rfl, fun _ h => h⟩
      · rw [init_reward cfg s hd]
        cases hc : s.cursor with
        | none => rw [reward_idle cfg s hc]; exact ⟨rfl, rfl, fun _ h => h⟩
        | some k =>
          obtain ⟨vis, hv⟩ := reward_rewarded cfg s k hc
          refine ⟨hv.period, hv.rate, ?_⟩
          intro a ha
          rw [hv.outside a, ha]
          intro hin
          obtain ⟨⟨b, p⟩, hin', rfl⟩ := List.mem_map.1 hin
          rw [(hv.mem b p hin').1] at ha; cases ha
    exact ⟨fun h => absurd hm.1 h, fun h => absurd hm.2.1 h, fun _ => Or.inl rfl, fun _ => Or.inl rfl,
      fun _ _ => Or.inl rfl, fun a h h' => absurd (hm.2.2 a h) h'⟩

/-- C87, bridging in. The bridge mints for an administrator exactly if the amount is zero, or the asset
is live, the receiver can hold the amount and the supply stays below 2^128; then exactly the amount is
created for the receiver, and nothing else changes. -/
theorem C87_bridge_mint (cfg : Cfg) (s : State) (w dst : AccId) (v : Balance)
    (hp : s.priv w .creditAdmin = true) :
    let r := step cfg s (.bridgeMint w dst v)
    (r.2 = .done ↔ v = 0 ∨ (s.asset.live = true ∧
      (s.asset.accts.contains dst = true ∨ s.asset.minBal ≤ v) ∧ s.asset.supply + v < 2 ^ 128)) ∧
    (r.2 ≠ .done → r.1 = s) ∧
    (r.2 = .done → r.1.asset.bal dst = s.asset.bal dst + v ∧
      (∀ x, x ≠ dst → r.1.asset.bal x = s.asset.bal x) ∧ r.1.asset.supply = s.asset.supply + v ∧
      r.1 = { s with asset := r.1.asset }) := by
  have hok : ∀ x, s.asset.mint dst v = .ok x → step cfg s (.bridgeMint w dst v) = ({ s with asset := x }, .done) := by
    intro x hx; simp [step, body, bridgeMint, hp, hx, liftAsset, Except.map]
  have hno : ∀ e, s.asset.mint dst v = .error e → step cfg s (.bridgeMint w dst v) = (s, .failed (.asset e)) := by
    intro x hx; simp [step, body, bridgeMint, hp, hx, liftAsset, Except.map]
  have hiff : (∃ x, s.asset.mint dst v = .ok x) ↔ v = 0 ∨ (s.asset.live = true ∧
      (s.asset.accts.contains dst = true ∨ s.asset.minBal ≤ v) ∧ s.asset.supply + v < 2 ^ 128) := by
    unfold Asset.mint
    by_cases h0 : v = 0
    · simp [h0]
    by_cases hl : s.asset.live = true
    rotate_left
    · simp [h0, hl]
    by_cases hc : s.asset.accts.contains dst = false ∧ v < s.asset.minBal
    · have := hc.2
      simp [h0, hl, hc.1, hc.2]
      omega
    · rw [if_neg h0, if_neg (by simp [hl]), if_neg hc]
      by_cases ho : 2 ^ 128 ≤ s.asset.supply + v
      · rw [if_pos ho]
        constructor
        · rintro ⟨x, hx⟩; cases hx
        · rintro (h | h)
          · exact absurd h h0
          · omega
      · rw [if_neg ho]
        refine ⟨fun _ => Or.inr ⟨hl, ?_, by omega⟩, fun _ => ⟨_, rfl⟩⟩
        by_cases hcc : s.asset.accts.contains dst = true
        · exact Or.inl hcc
        · right
          by_contra hlt
          exact hc ⟨by simpa using hcc, by omega⟩
  intro r
  cases hm : s.asset.mint dst v with
  | error e =>
    have hr : r = (s, .failed (.asset e)) := hno e hm
    refine ⟨?_, fun _ => by rw [hr], fun h => by rw [hr] at h; cases h⟩
    rw [← hiff, hr]
    constructor
    · intro h; cases h
    · rintro ⟨x, hx⟩; rw [hm] at hx; cases hx
  | ok x =>
    have hr : r = ({ s with asset := x }, .done) := hok x hm
    obtain ⟨m1, m2, m3⟩ := Asset.mint_exact hm
    refine ⟨?_, fun h => absurd (by rw [hr]) h, fun _ => by rw [hr]; exact ⟨m1, m2, m3, rfl⟩⟩
    rw [← hiff, hr]
    exact ⟨fun _ => ⟨x, hm⟩, fun _ => rfl⟩

/-- C87, bridging out. The bridge burns for an administrator exactly if the amount is zero, or the asset
is live, the account is not frozen and owns the amount; then exactly the amount is taken from the
account named (and a rest below the minimum balance with it), the supply falls by what was taken, and
nothing else changes. -/
theorem C87_bridge_burn (cfg : Cfg) (s : State) (w src : AccId) (v : Balance)
    (hp : s.priv w .creditAdmin = true) :
    let r := step cfg s (.bridgeBurn w src v)
    (r.2 = .done ↔ v = 0 ∨ (s.asset.live = true ∧ s.asset.frozen src = false ∧ v ≤ s.asset.bal src)) ∧
    (r.2 ≠ .done → r.1 = s) ∧
    (r.2 = .done →
      (s.asset.minBal ≤ s.asset.bal src - v ∨ v = 0 → r.1.asset.bal src + v = s.asset.bal src) ∧
      (s.asset.bal src - v < s.asset.minBal → 0 < v → r.1.asset.bal src = 0) ∧
      (∀ x, x ≠ src → r.1.asset.bal x = s.asset.bal x) ∧
      r.1.asset.supply = s.asset.supply - (s.asset.bal src - r.1.asset.bal src) ∧
      r.1 = { s with asset := r.1.asset }) := by
  have hok : ∀ x, s.asset.burn src v = .ok x → step cfg s (.bridgeBurn w src v) = ({ s with asset := x }, .done) := by
    intro x hx; simp [step, body, bridgeBurn, hp, hx, liftAsset, Except.map]
  have hno : ∀ e, s.asset.burn src v = .error e → step cfg s (.bridgeBurn w src v) = (s, .failed (.asset e)) := by
    intro x hx; simp [step, body, bridgeBurn, hp, hx, liftAsset, Except.map]
  have hiff : (∃ x, s.asset.burn src v = .ok x) ↔
      v = 0 ∨ (s.asset.live = true ∧ s.asset.frozen src = false ∧ v ≤ s.asset.bal src) := by
    unfold Asset.burn
    by_cases h0 : v = 0
    · simp [h0]
    by_cases hl : s.asset.live = true
    rotate_left
    · simp [h0, hl]
    by_cases hf : s.asset.frozen src = true
    · simp [h0, hl, hf]
    by_cases hb : s.asset.bal src < v
    · simp [h0, hl, hf, hb, Nat.not_le.2 hb]
    · simp [h0, hl, hf, hb, Nat.not_lt.1 hb]
  intro r
  cases hm : s.asset.burn src v with
  | error e =>
    have hr : r = (s, .failed (.asset e)) := hno e hm
    refine ⟨?_, fun _ => by rw [hr], fun h => by rw [hr] at h; cases h⟩
    rw [← hiff, hr]
    constructor
    · intro h; cases h
    · rintro ⟨x, hx⟩; rw [hm] at hx; cases hx
  | ok x =>
    have hr : r = ({ s with asset := x }, .done) := hok x hm
    obtain ⟨m1, m2, m3, m4, m5⟩ := Asset.burn_exact hm
    refine ⟨?_, fun h => absurd (by rw [hr]) h, fun _ => by
      rw [hr]
      refine ⟨?_, ?_, m4, ?_, rfl⟩
      rotate_left 2
      · show x.supply = s.asset.supply - (s.asset.bal src - x.bal src)
        by_cases h0 : v = 0
        · rw [m2 h0, Nat.sub_self, Nat.sub_zero]
        · rw [m5 (by omega)]
          have h1 := m3 (by omega)
          congr 1
          omega
      · intro h
        by_cases h0 : v = 0
        · rw [m2 h0, h0]; rfl
        · have h1 := m3 (by omega)
          have hd : s.asset.dust src v = 0 := by
            unfold Asset.dust; rw [if_neg (by omega)]
          show x.bal src + v = _
          omega
      · intro h h0
        have h1 := m3 h0
        have hd : s.asset.dust src v = s.asset.bal src - v := by
          unfold Asset.dust; rw [if_pos h]
        show x.bal src = 0
        omega⟩
    rw [← hiff, hr]
    exact ⟨fun _ => ⟨x, hm⟩, fun _ => rfl⟩

/-- C87. Root's deposit gives the pool exactly the amount (nothing if the pool account does not exist
and the amount is below the existential deposit) and adds it to the recorded total; nothing else
changes. -/
theorem C87_pool (cfg : Cfg) (s : State) (v : Balance) (hb : s.bank.Inv) :
    let r := step cfg s (.addPool true v)
    r.2 = .done ∧
    r.1.bank.free cfg.pool = s.bank.free cfg.pool +
      (if s.bank.accts.contains cfg.pool = true ∨ s.bank.ed ≤ v then v else 0) ∧
    r.1.bank.reserved cfg.pool = s.bank.reserved cfg.pool ∧
    (∀ x, x ≠ cfg.pool → r.1.bank.acct x = s.bank.acct x) ∧
    r.1.poolTotal = s.poolTotal + v ∧ r.1 = { s with bank := r.1.bank, poolTotal := r.1.poolTotal } := by
  refine ⟨rfl, Bank.depositCreating_free hb _ _, Bank.depositCreating_reserved hb _ _, ?_, rfl, rfl⟩
  intro x hx
  exact (Bank.depositCreating_ne _ hx).1

/-- C87, when a swap is accepted: the exchange rate must not be zero, the caller must own the ADSC
offered and be able to send it, and the pool must be able to pay. -/
theorem C87_swap_accepted (cfg : Cfg) (s : State) (who : AccId) (v : Balance) (hne : who ≠ cfg.pool) :
    let dpr := min (v * s.rate.2) (2 ^ 128 - 1) / s.rate.1
    ((step cfg s (.swap who v)).2 = .swapped dpr ↔ 0 < s.rate.1 ∧
      (v = 0 ∨ (s.asset.live = true ∧ s.asset.frozen who = false ∧ v ≤ s.asset.bal who ∧
        (s.asset.accts.contains cfg.pool = true ∨ s.asset.minBal ≤ v))) ∧
      (dpr = 0 ∨ (dpr ≤ s.bank.free cfg.pool ∧
        s.bank.frozen cfg.pool - s.bank.reserved cfg.pool ≤ s.bank.free cfg.pool - dpr ∧
        (s.bank.ed ≤ s.bank.free cfg.pool - dpr ∨ s.bank.canDie cfg.pool = true) ∧
        s.bank.ed ≤ s.bank.free who + dpr))) := by
  intro dpr
  have hA : (∃ x, s.asset.transfer who cfg.pool v = .ok x) ↔
      v = 0 ∨ (s.asset.live = true ∧ s.asset.frozen who = false ∧ v ≤ s.asset.bal who ∧
        (s.asset.accts.contains cfg.pool = true ∨ s.asset.minBal ≤ v)) := by
    unfold Asset.transfer
    by_cases h0 : v = 0
    · simp [h0]
    by_cases hl : s.asset.live = true
    rotate_left
    · simp [h0, hl]
    by_cases hf : s.asset.frozen who = true
    · simp [h0, hl, hf]
    by_cases hb : s.asset.bal who < v
    · simp [h0, hl, hf, hb, Nat.not_le.2 hb]
    by_cases hc : s.asset.accts.contains cfg.pool = true
    · simp [h0, hl, hf, hb, Nat.not_lt.1 hb, hc, hne]
    · by_cases hm : v < s.asset.minBal
      · simp [h0, hl, hf, hb, Nat.not_lt.1 hb, hc, hm, Nat.not_le.2 hm]
      · simp [h0, hl, hf, hb, Nat.not_lt.1 hb, hc, hm, Nat.not_lt.1 hm, hne]
  have hB : (∃ b, s.bank.transfer cfg.pool who dpr false = .ok b) ↔
      (dpr = 0 ∨ (dpr ≤ s.bank.free cfg.pool ∧
        s.bank.frozen cfg.pool - s.bank.reserved cfg.pool ≤ s.bank.free cfg.pool - dpr ∧
        (s.bank.ed ≤ s.bank.free cfg.pool - dpr ∨ s.bank.canDie cfg.pool = true) ∧
        s.bank.ed ≤ s.bank.free who + dpr)) := by
    unfold Bank.transfer
    generalize dpr = d
    by_cases h0 : d = 0
    · simp [h0]
    have hne' : cfg.pool ≠ who := fun h => hne h.symm
    rw [if_neg (by rintro (h | h) <;> [exact h0 h; exact hne' h])]
    by_cases h1 : s.bank.free cfg.pool < d
    · simp [h0, h1, Nat.not_le.2 h1]
    rw [if_neg h1]
    by_cases h2 : s.bank.free cfg.pool - d < s.bank.frozen cfg.pool - s.bank.reserved cfg.pool
    · rw [if_pos h2]
      refine ⟨fun ⟨_, h⟩ => (by cases h), ?_⟩
      rintro (h | h)
      · exact absurd h h0
      · omega
    rw [if_neg h2, if_neg (by simp)]
    by_cases h3 : s.bank.free cfg.pool - d < s.bank.ed ∧ ¬ s.bank.canDie cfg.pool = true
    · rw [if_pos h3]
      refine ⟨fun ⟨_, h⟩ => (by cases h), ?_⟩
      rintro (h | ⟨_, _, h | h, _⟩)
      · exact absurd h h0
      · omega
      · exact absurd h h3.2
    rw [if_neg h3]
    by_cases h4 : s.bank.free who + d < s.bank.ed
    · rw [if_pos h4]
      refine ⟨fun ⟨_, h⟩ => (by cases h), ?_⟩
      rintro (h | h)
      · exact absurd h h0
      · omega
    rw [if_neg h4]
    refine ⟨fun _ => Or.inr ⟨by omega, by omega, ?_, by omega⟩, fun _ => ⟨_, rfl⟩⟩
    by_cases hd : s.bank.canDie cfg.pool = true
    · exact Or.inr hd
    · left
      by_contra hlt
      exact h3 ⟨by omega, hd⟩
  rw [← hA, ← hB]
  cases ha : s.asset.transfer who cfg.pool v with
  | error e =>
    have : step cfg s (.swap who v) = (s, .failed (.asset e)) := by
      simp [step, body, swap, ha, liftAsset, Except.map]
    rw [this]
    constructor
    · intro h; cases h
    · rintro ⟨_, ⟨x, hx⟩, _⟩; cases hx
  | ok x =>
    by_cases hr : s.rate.1 = 0
    · have : step cfg s (.swap who v) = (s, .failed .panic) := by
        simp [step, body, swap, ha, hr, liftAsset, Except.map]
      rw [this]
      constructor
      · intro h; cases h
      · rintro ⟨h, _⟩; omega
    · cases hb : s.bank.transfer cfg.pool who dpr false with
      | error e =>
        have : step cfg s (.swap who v) = (s, .failed (.bank e)) := by
          have hb' := hb
          simp only [dpr] at hb'
          simp only [step, body, swap, ha, hr, liftAsset, Except.map, if_false, hb', liftBank]
        rw [this]
        constructor
        · intro h; cases h
        · rintro ⟨_, _, ⟨x, hx⟩⟩; cases hx
      | ok b =>
        have : (step cfg s (.swap who v)).2 = .swapped dpr := by
          have hb' := hb
          simp only [dpr] at hb'
          simp only [step, body, swap, ha, hr, liftAsset, Except.map, if_false, hb', liftBank, dpr]
        rw [this]
        exact ⟨fun _ => ⟨by omega, ⟨x, rfl⟩, ⟨b, rfl⟩⟩, fun _ => rfl⟩

/-- An item can be destroyed: it exists with its description, in a collection. -/
def destroyable (n : Nfts) (i : Nat × Nat) : Prop :=
  (∃ o, n.items.get i = some o) ∧ n.coll i.1 = true ∧ n.metas.get i ≠ none

/-- C66, acceptance: a staker with an item can be added exactly by an administrator of credit, if the item the
account has been given before is another one and can be destroyed, the collection exists and can pay the deposits,
and the item is new. -/
theorem C66_accepted (cfg : Cfg) (s : State) (w a : AccId) (i : Nat × Nat) :
    (step cfg s (.addStakerNft w a i)).2 = .done ↔ s.priv w .creditAdmin = true ∧
      (∀ old, s.nftOf.get a = some old → old ≠ i ∧ destroyable s.nfts old) ∧
      s.nfts.coll i.1 = true ∧ s.nfts.items.get i = none ∧ s.nfts.funds i.1 = true := by
  have hrm : ∀ (n : Nfts) (o : Nat × Nat), destroyable n o →
      removeNft n o = some { n with items := n.items.erase o, metas := n.metas.erase o } := by
    rintro n o ⟨⟨x, h1⟩, h2, h3⟩
    obtain ⟨y, hy⟩ := Option.ne_none_iff_exists'.1 h3
    simp [removeNft, FMap.contains, h1, h2, hy]
  have hrm' : ∀ (n n' : Nfts) (o : Nat × Nat), removeNft n o = some n' → destroyable n o := by
    intro n n' o h
    unfold removeNft at h
    split at h
    · cases h
    rename_i h1
    split at h
    · cases h
    rename_i h2
    split at h
    · cases h
    rename_i h3
    simp only [FMap.contains, Bool.not_eq_false] at h1 h2 h3
    refine ⟨Option.isSome_iff_exists.1 h1, h2, fun e => ?_⟩
    rw [e] at h3; cases h3
  have hadd : ∀ (n : Nfts), (∃ n', addNft n i a = some n') ↔
      n.coll i.1 = true ∧ n.items.get i = none ∧ n.funds i.1 = true := by
    intro n
    unfold addNft
    cases h1 : n.coll i.1 <;> cases h2 : n.items.get i <;> cases h3 : n.funds i.1 <;> simp [FMap.contains, h2]
  have hst : (step cfg s (.addStakerNft w a i)).2 = .done ↔ ∃ t, addStakerNft s w a i = .ok t := by
    simp only [step, body]
    cases addStakerNft s w a i <;> simp [Except.map]
  rw [hst]
  unfold addStakerNft
  cases hp : s.priv w .creditAdmin with
  | false => simp
  | true =>
    simp only [Bool.not_true, Bool.false_eq_true, if_false, true_and]
    unfold dropOldNft
    cases ho : s.nftOf.get a with
    | none =>
      simp only
      rw [← hadd]
      cases addNft s.nfts i a <;> simp
    | some old =>
      simp only
      by_cases hi : old = i
      · rw [if_pos hi]
        simp [hi]
      rw [if_neg hi]
      cases hr : removeNft s.nfts old with
      | none =>
        simp only [reduceCtorEq, exists_false, false_iff]
        rintro ⟨h, _⟩
        rw [hrm _ _ (h old rfl).2] at hr
        cases hr
      | some n =>
        have hd := hrm' _ _ _ hr
        have hn := hrm _ _ hd
        rw [hr] at hn
        cases hn
        simp only
        have e : ∀ o : Option Nfts, (∃ t : State, (match o with
            | none => (.error .nft : Except Err State)
            | some n => .ok { s with stakers := s.stakers.insert a s.period, nftOf := s.nftOf.insert a i, nfts := n }) = .ok t) ↔
            ∃ n', o = some n' := by
          intro o
          cases o <;> simp
        refine (e _).trans ?_
        rw [hadd]
        simp only [FMap.get_erase_ne _ (fun e : i = old => hi e.symm)]
        constructor
        · intro h
          exact ⟨fun o h' => by cases h'; exact ⟨hi, hd⟩, h⟩
        · rintro ⟨_, h⟩
          exact h

/-- Account 1 gets item (1, 1), then (1, 2) instead of it; without the privilege or for the same item again
this fails, and account 2 cannot get an item that exists. -/
example :
    let s := (run exCfg { genesis exCfg exBank exAsset 100 with priv := fun a _ => decide (a = 7) } [.addStakerNft 7 1 (1, 1)]).1
    (step exCfg s (.addStakerNft 7 1 (1, 2))).2 = .done ∧ (step exCfg s (.addStakerNft 8 1 (1, 2))).2 = .failed .notAdmin ∧
    (step exCfg s (.addStakerNft 7 1 (1, 1))).2 = .failed .sameNft ∧
    (step exCfg s (.addStakerNft 7 2 (1, 1))).2 = .failed .nft := by
  decide +kernel

/-- An administrator mints 500 to account 3 and burns 495 again: the rest of 5 is below the minimum
balance of 10 and is burnt too. Without the privilege nothing happens. -/
example :
    let s := { genesis exCfg exBank exAsset 100 with priv := fun a _ => decide (a = 7) }
    let r := run exCfg s [.bridgeMint 8 3 500, .bridgeMint 7 3 500, .bridgeBurn 7 3 495, .bridgeMint 7 4 9,
      .setRate 8 (1, 1), .setRate 7 (3, 1), .addPool true 50]
    r.2.map (fun e => e.2.2) = [.failed .notAdmin, .done, .done, .failed (.asset .belowMinimum),
      .failed .notAdmin, .done, .done] ∧
    r.1.asset.bal 3 = 0 ∧ r.1.rate = (3, 1) ∧ r.1.poolTotal = 50 ∧
    r.1.bank.free 99 = s.bank.free 99 + 50 := by
  decide +kernel

end Verif.Adsc
