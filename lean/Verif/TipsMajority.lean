import Verif.TipsProperties
import Mathlib.Data.List.Count

/-
Property C147: council members who are a majority and agree decide what a tip pays, whatever the others do. No new
definitions of the code.
-/

namespace Verif.Tips

/-- What is asked of one call (state before, call, outcome): the members in `G` declare nothing but `x` for the tip `h` and
keep their seats; the tip is not retracted, slashed or closed in either way. Everything else is free, failed attempts
included. -/
def Loyal (h x : Nat) (G : List AccId) : State × Op × Out → Prop
  | (_, .tip a h' v, _) => h' = h → a ∈ G → v = x
  | (_, .external _ _ m, _) => ∀ a ∈ G, a ∈ m
  | (_, .retract _ h', out) => h' = h → ∃ e, out = .failed e
  | (_, .slash _ h', out) => h' = h → ∃ e, out = .failed e
  | (_, .close h', out) => h' = h → ∃ e, out = .failed e
  | (_, .closeCredit h', out) => h' = h → ∃ e, out = .failed e
  | _ => True

/-- The members in `G` have declared `x`. -/
def Agreed (x : Nat) (G : List AccId) (k : Track) : Prop := ∀ a ∈ G, k.money a = some x

theorem agreed_step {cfg : Cfg} (hinj : ∀ a b c d, cfg.hashOf a b = cfg.hashOf c d → a = c ∧ b = d) {s : State} (hk : KInv cfg s)
    {h x : Nat} {G : List AccId} {k : Track} {p : Nat × Bool} (hag : AgreeOpt cfg (s.open_.get h) (some k)) (hG : ∀ a ∈ G, a ∈ s.members)
    (ha : Agreed x G k) (hp : k.majority = some p) (op : Op) (hl : Loyal h x G (s, op, (step cfg s op).2)) :
    (∃ k', trackStep cfg h (some k) (s, op, (step cfg s op).2) = some k' ∧ Agreed x G k' ∧ k'.majority = some p ∧
      k'.who = k.who ∧ k'.finder = k.finder ∧ k'.reported = k.reported) ∧ ∀ a ∈ G, a ∈ (step cfg s op).1.members := by
  have hopen : s.open_.get h ≠ none := by intro e; rw [e] at hag; exact hag
  have hfresh : ∀ r w, s.reasons.contains (cfg.hash r) = false → key cfg r w ≠ h := by
    intro r w hr e
    exact hopen (by rw [← e]; exact hk.fresh hinj hr w)
  have hreach : ∀ (d : AccId → Option Nat) b, reached s k.majority d b = some p := by
    intro d b
    unfold reached
    rw [hp, if_neg]
    rintro ⟨e, -⟩; cases e
  rcases step_shape cfg s op with ⟨e, hst⟩ | ⟨n, b, m, rfl, hst⟩ | ⟨a, rfl, hst⟩ |
    ⟨f, r, w, b, rfl, hr, _, _, _, hst⟩ | ⟨a, r, w, v, rfl, _, hr, hst⟩ | ⟨a, r, w, v, rfl, _, hr, hst⟩ |
    ⟨a, h', v, t, rfl, _, ht, hst⟩ | ⟨a, h', v, t, rfl, _, ht, hst⟩ | ⟨h', t, b, o, ht, hst, hop⟩
  · rw [hst, trackStep_failed]
    exact ⟨⟨k, rfl, ha, hp, rfl, rfl, rfl⟩, hG⟩
  · rw [hst]
    exact ⟨⟨k, rfl, ha, hp, rfl, rfl, rfl⟩, hl⟩
  · rw [hst]
    exact ⟨⟨k, rfl, ha, hp, rfl, rfl, rfl⟩, hG⟩
  · rw [hst]
    simp only [trackStep, if_neg (hfresh r w hr)]
    exact ⟨⟨k, rfl, ha, hp, rfl, rfl, rfl⟩, hG⟩
  · rw [hst]
    simp only [trackStep, if_neg (hfresh r w hr)]
    exact ⟨⟨k, rfl, ha, hp, rfl, rfl, rfl⟩, hG⟩
  · rw [hst]
    simp only [trackStep, if_neg (hfresh r w hr)]
    exact ⟨⟨k, rfl, ha, hp, rfl, rfl, rfl⟩, hG⟩
  · rw [hst]
    refine ⟨?_, hG⟩
    simp only [trackStep]
    by_cases hh : h' = h
    · rw [if_pos hh]
      refine ⟨_, rfl, ?_, hreach _ _, rfl, rfl, rfl⟩
      intro y hy
      simp only [declare, if_pos (hG y hy)]
      split
      · rename_i e
        rw [hl hh (by rw [← e]; exact hy)]
      · exact ha y hy
    · rw [if_neg hh]
      exact ⟨k, rfl, ha, hp, rfl, rfl, rfl⟩
  · rw [hst]
    refine ⟨?_, hG⟩
    simp only [trackStep]
    by_cases hh : h' = h
    · rw [if_pos hh]
      exact ⟨_, rfl, ha, hreach _ _, rfl, rfl, rfl⟩
    · rw [if_neg hh]
      exact ⟨k, rfl, ha, hp, rfl, rfl, rfl⟩
  · have hh : h' ≠ h := by
      intro e
      rw [hst] at hl
      rcases hop with ⟨rfl, rfl, _⟩ | ⟨rfl, rfl, _⟩ | ⟨v, n, rfl, rfl, _⟩ | ⟨v, n, rfl, rfl, _⟩ <;>
      · obtain ⟨e', he'⟩ := hl e
        cases he'
    rw [hst]
    refine ⟨?_, hG⟩
    rcases hop with ⟨rfl, rfl, _⟩ | ⟨rfl, rfl, _⟩ | ⟨v, n, rfl, rfl, _⟩ | ⟨v, n, rfl, rfl, _⟩ <;>
    · simp only [trackStep, if_neg hh]
      exact ⟨k, rfl, ha, hp, rfl, rfl, rfl⟩

theorem agreed_run {cfg : Cfg} (hinj : ∀ a b c d, cfg.hashOf a b = cfg.hashOf c d → a = c ∧ b = d) {h x : Nat} {G : List AccId}
    {p : Nat × Bool} (ops : List Op) : ∀ (s : State) (k : Track), KInv cfg s → SortedCouncil s.members ops →
    AgreeOpt cfg (s.open_.get h) (some k) → (∀ a ∈ G, a ∈ s.members) → Agreed x G k → k.majority = some p →
    (∀ e ∈ (run cfg s ops).2, Loyal h x G e) →
    (∃ k', (run cfg s ops).2.foldl (trackStep cfg h) (some k) = some k' ∧ Agreed x G k' ∧ k'.majority = some p ∧
      k'.who = k.who ∧ k'.finder = k.finder ∧ k'.reported = k.reported) ∧ ∀ a ∈ G, a ∈ (run cfg s ops).1.members := by
  induction ops with
  | nil => intro s k _ _ _ hG ha hp _; exact ⟨⟨k, rfl, ha, hp, rfl, rfl, rfl⟩, hG⟩
  | cons op ops ih =>
    intro s k hk hs hag hG ha hp hl
    obtain ⟨⟨k', h1, h2, h3, h4, h5, h6⟩, h7⟩ := agreed_step hinj hk hag hG ha hp op (hl _ List.mem_cons_self)
    have hag' := step_agree cfg hs.1 hag op
    rw [h1] at hag'
    obtain ⟨⟨k2, g1, g2, g3, g4, g5, g6⟩, g7⟩ := ih (step cfg s op).1 k' (step_kinv hinj hk op)
      ⟨step_members cfg hs.1 fun n b m e => hs.2 n b m (by rw [e]; exact List.mem_cons_self), fun n b m hm => hs.2 n b m (List.mem_cons_of_mem _ hm)⟩
      hag' h7 h2 h3 (fun e he => hl e (List.mem_cons_of_mem _ he))
    refine ⟨⟨k2, ?_, g2, g3, g4.trans h4, g5.trans h5, g6.trans h6⟩, g7⟩
    show (run cfg (step cfg s op).1 ops).2.foldl (trackStep cfg h) (trackStep cfg h (some k) (s, op, (step cfg s op).2)) = some k2
    rw [h1]
    exact g1

theorem le_countP (p : AccId → Bool) : ∀ (G l : List AccId), G.Nodup → (∀ a ∈ G, a ∈ l ∧ p a = true) → G.length ≤ l.countP p := by
  intro G
  induction G with
  | nil => intro l _ _; exact Nat.zero_le _
  | cons g G ih =>
    intro l hn hs
    obtain ⟨h1, h2⟩ := List.nodup_cons.1 hn
    obtain ⟨h3, h4⟩ := hs g List.mem_cons_self
    have hp := List.perm_cons_erase h3
    rw [hp.countP_eq, List.countP_cons_of_pos h4]
    refine Nat.succ_le_succ (ih (l.erase g) h2 fun a ha => ?_)
    obtain ⟨h5, h6⟩ := hs a (List.mem_cons_of_mem _ ha)
    exact ⟨(List.mem_erase_of_ne (fun e => h1 (by rw [← e]; exact ha))).2 h5, h6⟩

/-- The median is what a majority agrees on. -/
theorem median_agreed {m x : Nat} {ms G : List AccId} {d : AccId → Option Nat} (hn : G.Nodup) (hG : ∀ a ∈ G, a ∈ ms)
    (hx : ∀ a ∈ G, d a = some x) (hmaj : ms.length < 2 * G.length) (hm : IsMedian m (ms.filterMap d)) : m = x := by
  obtain ⟨-, h2, h3⟩ := hm
  have hlen := List.length_filterMap_le d ms
  have hc : G.length ≤ (ms.filterMap d).countP (fun v => decide (v = x)) := by
    rw [List.countP_filterMap]
    refine le_countP _ G ms hn fun a ha => ⟨hG a ha, ?_⟩
    simp [hx a ha]
  rcases Nat.lt_trichotomy m x with h | h | h
  · have : (ms.filterMap d).countP (fun v => decide (v = x)) ≤ (ms.filterMap d).countP (fun v => decide (m < v)) :=
      List.countP_mono_left fun v _ hv => by have := of_decide_eq_true hv; exact decide_eq_true (by omega)
    omega
  · exact h
  · have : (ms.filterMap d).countP (fun v => decide (v = x)) ≤ (ms.filterMap d).countP (fun v => decide (v < m)) :=
      List.countP_mono_left fun v _ hv => by have := of_decide_eq_true hv; exact decide_eq_true (by omega)
    omega

theorem kinv_run {cfg : Cfg} (hinj : ∀ a b c d, cfg.hashOf a b = cfg.hashOf c d → a = c ∧ b = d) (ops : List Op) :
    ∀ s, KInv cfg s → KInv cfg (run cfg s ops).1 := by
  induction ops with
  | nil => intro s h; exact h
  | cons op ops ih => intro s h; exact ih _ (step_kinv hinj h op)

theorem run_append (cfg : Cfg) (ops rest : List Op) : ∀ s, run cfg s (ops ++ rest) =
    ((run cfg (run cfg s ops).1 rest).1, (run cfg s ops).2 ++ (run cfg (run cfg s ops).1 rest).2) := by
  induction ops with
  | nil => intro s; rfl
  | cons op ops ih => intro s; simp only [List.cons_append, run, ih]

/-- C147. In a history `ops` members `G` of the council have all declared `x` for a tip, and half of the council has declared
(since block `b`). Then, whatever anybody does in `rest`, as long as they keep their declarations and seats and nobody ends
the tip in another way: when the countdown is over anybody can close it, and if they are a majority of the council then it
pays exactly `x` (less the fee of the finder), whatever the other members have declared. Partial: the full statement has no
condition on closing the tip in credit, which is false (`C147_taken_by_one`). -/
theorem C147_majority_decides_partial (cfg : Cfg) (hinj : ∀ a b c d, cfg.hashOf a b = cfg.hashOf c d → a = c ∧ b = d) (bank : Bank) (ms : List AccId)
    (ops rest : List Op) (hs : SortedCouncil ms (ops ++ rest)) (h x : Nat) (G : List AccId) (hn : G.Nodup) (k : Track) (b : Nat) (kind : Bool)
    (hk : track cfg h (run cfg (genesis bank ms) ops).2 = some k) (ha : ∀ a ∈ G, k.money a = some x) (hm : k.majority = some (b, kind)) :
    let s := (run cfg (genesis bank ms) ops).1
    let z := (run cfg s rest).1
    (∀ a ∈ G, a ∈ s.members) → (∀ e ∈ (run cfg s rest).2, Loyal h x G e) → b + cfg.countdown ≤ z.block → z.members.length < 2 * G.length →
    (step cfg z (.close h)).2 =
      .closed k.who (x - (if k.reported = true ∧ k.finder ≠ k.who then divNearestDown (x * cfg.feePct) 100 else 0)) := by
  intro s z hG hl hb hmaj
  have hs1 : SortedCouncil ms ops := ⟨hs.1, fun n b m hm => hs.2 n b m (List.mem_append_left _ hm)⟩
  obtain ⟨hag, hms⟩ := stored_agrees cfg bank ms ops hs1 h
  rw [hk] at hag
  obtain ⟨⟨k', g1, g2, g3, g4, g5, g6⟩, g7⟩ := agreed_run hinj rest s k (kinv_run hinj ops _ (genesis_kinv cfg bank ms))
    ⟨hms, fun n b m hm => hs.2 n b m (List.mem_append_right _ hm)⟩ hag hG ha hm hl
  have hz : (run cfg (genesis bank ms) (ops ++ rest)).1 = z := by rw [run_append]
  have hk' : track cfg h (run cfg (genesis bank ms) (ops ++ rest)).2 = some k' := by
    rw [run_append]
    unfold track at hk ⊢
    rw [List.foldl_append, hk]
    exact g1
  have hcan := (C34_can_be_closed cfg bank ms (ops ++ rest) hs h k' b kind hk' g3 (by rw [hz]; exact hb)).1
  have hmed := C32_median cfg bank ms (ops ++ rest) hs h
  rw [hz] at hcan hmed
  obtain ⟨v, hv⟩ := hcan (by
    intro e
    obtain ⟨a, ha'⟩ : ∃ a, a ∈ G := by
      cases G with
      | nil => simp at hmaj
      | cons g G => exact ⟨g, List.mem_cons_self⟩
    have : x ∈ z.members.filterMap k'.money := List.mem_filterMap.2 ⟨a, g7 a ha', g2 a ha'⟩
    rw [e] at this
    cases this)
  obtain ⟨k2, m, e1, -, e3, e4, -⟩ := hmed k'.who v hv
  rw [hk'] at e1
  cases e1
  have := median_agreed hn g7 g2 hmaj e3
  subst this
  rw [hv, e4, g4, g5, g6]

/-- Account 8 reports account 5; 1, 2 and 3 of the five members declare 100. -/
def exAgree : List Op :=
  [.setPot true 9, .report 8 [7] 5, .tip 1 (Nat.pair 7 5) 100, .tip 2 (Nat.pair 7 5) 100, .tip 3 (Nat.pair 7 5) 100]

/-- 4 and 6 declare otherwise, strangers try to end the tip, 4 leaves and 7 comes. -/
def exResist : List Op :=
  [.tip 4 (Nat.pair 7 5) 0, .tip 6 (Nat.pair 7 5) 900, .retract 6 (Nat.pair 7 5), .slash false (Nat.pair 7 5), .close (Nat.pair 7 5),
   .external 100 exBank [1, 2, 3, 6, 7], .tip 7 (Nat.pair 7 5) 5000, .creditTip 6 (Nat.pair 7 5) 3]

/-- `C147_majority_decides_partial` on this history: 100 less the fee of 20. -/
example : (step exCfg (run exCfg (run exCfg (genesis exBank [1, 2, 3, 4, 6]) exAgree).1 exResist).1 (.close (Nat.pair 7 5))).2 = .closed 5 80 := by
  have hs : SortedCouncil [1, 2, 3, 4, 6] (exAgree ++ exResist) := by
    refine ⟨by decide, ?_⟩
    intro n b m h
    simp only [exAgree, exResist, List.cons_append, List.nil_append, List.mem_cons, reduceCtorEq, List.not_mem_nil, or_false,
      false_or, Op.external.injEq] at h
    obtain ⟨_, _, rfl⟩ := h
    decide
  have key := C147_majority_decides_partial exCfg exCfg_inj exBank [1, 2, 3, 4, 6] exAgree exResist hs (Nat.pair 7 5) 100 [1, 2, 3] (by decide)
    _ 0 false rfl (by decide +kernel) (by decide +kernel) (by decide +kernel) ?_ (by decide +kernel) (by decide +kernel)
  · rw [key]; decide +kernel
  · intro e he
    simp only [exResist, run, List.mem_cons, List.not_mem_nil, or_false] at he
    rcases he with rfl | rfl | rfl | rfl | rfl | rfl | rfl | rfl
    · intro _ h; revert h; decide
    · intro _ h; revert h; decide
    · exact fun _ => ⟨.notFinder, by decide +kernel⟩
    · exact fun _ => ⟨.badOrigin, by decide +kernel⟩
    · exact fun _ => ⟨.premature, by decide +kernel⟩
    · show ∀ a ∈ [1, 2, 3], a ∈ [1, 2, 3, 6, 7]
      decide
    · intro _ h; revert h; decide
    · trivial

/-- C147, finding: a single member can take a tip in money away from the majority. All five members but one declare 100; the
fifth declares one point of credit for the same tip, and after the countdown closes it as a tip in credit: the
beneficiary gets one point and no money, and the tip is gone. -/
theorem C147_taken_by_one :
    ∃ (ops : List Op) (h : Nat),
      let s := (run exCfg (genesis exBank [1, 2, 3, 4, 6]) ops).1
      (∃ k, track exCfg h (run exCfg (genesis exBank [1, 2, 3, 4, 6]) ops).2 = some k ∧
        s.members.filterMap k.money = [100, 100, 100, 100] ∧ s.members.filterMap k.credit = [1]) ∧
      (step exCfg s (.closeCredit h)).2 = .credited 5 1 ∧
      (step exCfg s (.closeCredit h)).1.bank.free 5 = s.bank.free 5 ∧
      (step exCfg (step exCfg s (.closeCredit h)).1 (.close h)).2 = .failed .unknownTip := by
  refine ⟨exAgree ++ [.tip 4 (Nat.pair 7 5) 100, .creditTip 6 (Nat.pair 7 5) 1, .external 100 exBank [1, 2, 3, 4, 6]], Nat.pair 7 5, ?_⟩
  refine ⟨⟨_, rfl, by decide +kernel, by decide +kernel⟩, by decide +kernel, by decide +kernel, by decide +kernel⟩

/-! ### Tips in credit -/

/-- What is asked of one call (state before, call, outcome): the members in `G` declare no credit but `x` for the tip `h` and
keep their seats; the tip is not retracted, slashed or closed in either way. Everything else is free, failed attempts
included. -/
def LoyalC (h x : Nat) (G : List AccId) : State × Op × Out → Prop
  | (_, .creditTip a h' v, _) => h' = h → a ∈ G → v = x
  | (_, .external _ _ m, _) => ∀ a ∈ G, a ∈ m
  | (_, .retract _ h', out) => h' = h → ∃ e, out = .failed e
  | (_, .slash _ h', out) => h' = h → ∃ e, out = .failed e
  | (_, .close h', out) => h' = h → ∃ e, out = .failed e
  | (_, .closeCredit h', out) => h' = h → ∃ e, out = .failed e
  | _ => True

/-- The members in `G` have declared the credit `x`. -/
def AgreedC (x : Nat) (G : List AccId) (k : Track) : Prop := ∀ a ∈ G, k.credit a = some x

theorem agreedC_step {cfg : Cfg} (hinj : ∀ a b c d, cfg.hashOf a b = cfg.hashOf c d → a = c ∧ b = d) {s : State} (hk : KInv cfg s)
    {h x : Nat} {G : List AccId} {k : Track} {p : Nat × Bool} (hag : AgreeOpt cfg (s.open_.get h) (some k)) (hG : ∀ a ∈ G, a ∈ s.members)
    (ha : AgreedC x G k) (hp : k.majority = some p) (op : Op) (hl : LoyalC h x G (s, op, (step cfg s op).2)) :
    (∃ k', trackStep cfg h (some k) (s, op, (step cfg s op).2) = some k' ∧ AgreedC x G k' ∧ k'.majority = some p ∧
      k'.who = k.who ∧ k'.finder = k.finder ∧ k'.reported = k.reported) ∧ ∀ a ∈ G, a ∈ (step cfg s op).1.members := by
  have hopen : s.open_.get h ≠ none := by intro e; rw [e] at hag; exact hag
  have hfresh : ∀ r w, s.reasons.contains (cfg.hash r) = false → key cfg r w ≠ h := by
    intro r w hr e
    exact hopen (by rw [← e]; exact hk.fresh hinj hr w)
  have hreach : ∀ (d : AccId → Option Nat) b, reached s k.majority d b = some p := by
    intro d b
    unfold reached
    rw [hp, if_neg]
    rintro ⟨e, -⟩; cases e
  rcases step_shape cfg s op with ⟨e, hst⟩ | ⟨n, b, m, rfl, hst⟩ | ⟨a, rfl, hst⟩ |
    ⟨f, r, w, b, rfl, hr, _, _, _, hst⟩ | ⟨a, r, w, v, rfl, _, hr, hst⟩ | ⟨a, r, w, v, rfl, _, hr, hst⟩ |
    ⟨a, h', v, t, rfl, _, ht, hst⟩ | ⟨a, h', v, t, rfl, _, ht, hst⟩ | ⟨h', t, b, o, ht, hst, hop⟩
  · rw [hst, trackStep_failed]
    exact ⟨⟨k, rfl, ha, hp, rfl, rfl, rfl⟩, hG⟩
  · rw [hst]
    exact ⟨⟨k, rfl, ha, hp, rfl, rfl, rfl⟩, hl⟩
  · rw [hst]
    exact ⟨⟨k, rfl, ha, hp, rfl, rfl, rfl⟩, hG⟩
  · rw [hst]
    simp only [trackStep, if_neg (hfresh r w hr)]
    exact ⟨⟨k, rfl, ha, hp, rfl, rfl, rfl⟩, hG⟩
  · rw [hst]
    simp only [trackStep, if_neg (hfresh r w hr)]
    exact ⟨⟨k, rfl, ha, hp, rfl, rfl, rfl⟩, hG⟩
  · rw [hst]
    simp only [trackStep, if_neg (hfresh r w hr)]
    exact ⟨⟨k, rfl, ha, hp, rfl, rfl, rfl⟩, hG⟩
  · rw [hst]
    refine ⟨?_, hG⟩
    simp only [trackStep]
    by_cases hh : h' = h
    · rw [if_pos hh]
      exact ⟨_, rfl, ha, hreach _ _, rfl, rfl, rfl⟩
    · rw [if_neg hh]
      exact ⟨k, rfl, ha, hp, rfl, rfl, rfl⟩
  · rw [hst]
    refine ⟨?_, hG⟩
    simp only [trackStep]
    by_cases hh : h' = h
    · rw [if_pos hh]
      refine ⟨_, rfl, ?_, hreach _ _, rfl, rfl, rfl⟩
      intro y hy
      simp only [declare, if_pos (hG y hy)]
      split
      · rename_i e
        rw [hl hh (by rw [← e]; exact hy)]
      · exact ha y hy
    · rw [if_neg hh]
      exact ⟨k, rfl, ha, hp, rfl, rfl, rfl⟩
  · have hh : h' ≠ h := by
      intro e
      rw [hst] at hl
      rcases hop with ⟨rfl, rfl, _⟩ | ⟨rfl, rfl, _⟩ | ⟨v, n, rfl, rfl, _⟩ | ⟨v, n, rfl, rfl, _⟩ <;>
      · obtain ⟨e', he'⟩ := hl e
        cases he'
    rw [hst]
    refine ⟨?_, hG⟩
    rcases hop with ⟨rfl, rfl, _⟩ | ⟨rfl, rfl, _⟩ | ⟨v, n, rfl, rfl, _⟩ | ⟨v, n, rfl, rfl, _⟩ <;>
    · simp only [trackStep, if_neg hh]
      exact ⟨k, rfl, ha, hp, rfl, rfl, rfl⟩

theorem agreedC_run {cfg : Cfg} (hinj : ∀ a b c d, cfg.hashOf a b = cfg.hashOf c d → a = c ∧ b = d) {h x : Nat} {G : List AccId}
    {p : Nat × Bool} (ops : List Op) : ∀ (s : State) (k : Track), KInv cfg s → SortedCouncil s.members ops →
    AgreeOpt cfg (s.open_.get h) (some k) → (∀ a ∈ G, a ∈ s.members) → AgreedC x G k → k.majority = some p →
    (∀ e ∈ (run cfg s ops).2, LoyalC h x G e) →
    (∃ k', (run cfg s ops).2.foldl (trackStep cfg h) (some k) = some k' ∧ AgreedC x G k' ∧ k'.majority = some p ∧
      k'.who = k.who ∧ k'.finder = k.finder ∧ k'.reported = k.reported) ∧ ∀ a ∈ G, a ∈ (run cfg s ops).1.members := by
  induction ops with
  | nil => intro s k _ _ _ hG ha hp _; exact ⟨⟨k, rfl, ha, hp, rfl, rfl, rfl⟩, hG⟩
  | cons op ops ih =>
    intro s k hk hs hag hG ha hp hl
    obtain ⟨⟨k', h1, h2, h3, h4, h5, h6⟩, h7⟩ := agreedC_step hinj hk hag hG ha hp op (hl _ List.mem_cons_self)
    have hag' := step_agree cfg hs.1 hag op
    rw [h1] at hag'
    obtain ⟨⟨k2, g1, g2, g3, g4, g5, g6⟩, g7⟩ := ih (step cfg s op).1 k' (step_kinv hinj hk op)
      ⟨step_members cfg hs.1 fun n b m e => hs.2 n b m (by rw [e]; exact List.mem_cons_self), fun n b m hm => hs.2 n b m (List.mem_cons_of_mem _ hm)⟩
      hag' h7 h2 h3 (fun e he => hl e (List.mem_cons_of_mem _ he))
    refine ⟨⟨k2, ?_, g2, g3, g4.trans h4, g5.trans h5, g6.trans h6⟩, g7⟩
    show (run cfg (step cfg s op).1 ops).2.foldl (trackStep cfg h) (trackStep cfg h (some k) (s, op, (step cfg s op).2)) = some k2
    rw [h1]
    exact g1

/-- C147. The same for a tip in credit: it gives exactly the credit declared by the majority, at most the maximum. Partial: the
full statement has no condition on closing the tip in money, which is false (`C34_paid_without_majority`). -/
theorem C147_credit_decided_partial (cfg : Cfg) (hinj : ∀ a b c d, cfg.hashOf a b = cfg.hashOf c d → a = c ∧ b = d) (bank : Bank) (ms : List AccId)
    (ops rest : List Op) (hs : SortedCouncil ms (ops ++ rest)) (h x : Nat) (G : List AccId) (hn : G.Nodup) (k : Track) (b : Nat) (kind : Bool)
    (hk : track cfg h (run cfg (genesis bank ms) ops).2 = some k) (ha : ∀ a ∈ G, k.credit a = some x) (hm : k.majority = some (b, kind)) :
    let s := (run cfg (genesis bank ms) ops).1
    let z := (run cfg s rest).1
    (∀ a ∈ G, a ∈ s.members) → (∀ e ∈ (run cfg s rest).2, LoyalC h x G e) → b + cfg.countdown ≤ z.block → z.members.length < 2 * G.length →
    (step cfg z (.closeCredit h)).2 = .credited k.who (min x cfg.maxCredit) := by
  intro s z hG hl hb hmaj
  have hs1 : SortedCouncil ms ops := ⟨hs.1, fun n b m hm => hs.2 n b m (List.mem_append_left _ hm)⟩
  obtain ⟨hag, hms⟩ := stored_agrees cfg bank ms ops hs1 h
  rw [hk] at hag
  obtain ⟨⟨k', g1, g2, g3, g4, g5, g6⟩, g7⟩ := agreedC_run hinj rest s k (kinv_run hinj ops _ (genesis_kinv cfg bank ms))
    ⟨hms, fun n b m hm => hs.2 n b m (List.mem_append_right _ hm)⟩ hag hG ha hm hl
  have hz : (run cfg (genesis bank ms) (ops ++ rest)).1 = z := by rw [run_append]
  have hk' : track cfg h (run cfg (genesis bank ms) (ops ++ rest)).2 = some k' := by
    rw [run_append]
    unfold track at hk ⊢
    rw [List.foldl_append, hk]
    exact g1
  have hcan := (C34_can_be_closed cfg bank ms (ops ++ rest) hs h k' b kind hk' g3 (by rw [hz]; exact hb)).2.2.1
  have hmed := C67_credit_tip cfg bank ms (ops ++ rest) hs h
  rw [hz] at hcan hmed
  obtain ⟨v, hv⟩ := hcan (by
    intro e
    obtain ⟨a, ha'⟩ : ∃ a, a ∈ G := by
      cases G with
      | nil => simp at hmaj
      | cons g G => exact ⟨g, List.mem_cons_self⟩
    have : x ∈ z.members.filterMap k'.credit := List.mem_filterMap.2 ⟨a, g7 a ha', g2 a ha'⟩
    rw [e] at this
    cases this)
  obtain ⟨k2, m, e1, -, e3, e4, -⟩ := hmed k'.who v hv
  rw [hk'] at e1
  cases e1
  have := median_agreed hn g7 g2 hmaj e3
  subst this
  rw [hv, e4, g4]

/-- `C147_credit_decided_partial` on a history: 1, 2 and 3 of five members declare 7 points, the others try otherwise. -/
example : (step exCfg (run exCfg (run exCfg (genesis exBank [1, 2, 3, 4, 6])
    [.creditNew 1 [7] 5 7, .creditTip 2 (Nat.pair 7 5) 7, .creditTip 3 (Nat.pair 7 5) 7]).1
    [.creditTip 4 (Nat.pair 7 5) 15, .creditTip 6 (Nat.pair 7 5) 0, .external 100 exBank [1, 2, 3, 4, 6]]).1 (.closeCredit (Nat.pair 7 5))).2 =
      .credited 5 7 := by
  have key := C147_credit_decided_partial exCfg exCfg_inj exBank [1, 2, 3, 4, 6]
    [.creditNew 1 [7] 5 7, .creditTip 2 (Nat.pair 7 5) 7, .creditTip 3 (Nat.pair 7 5) 7]
    [.creditTip 4 (Nat.pair 7 5) 15, .creditTip 6 (Nat.pair 7 5) 0, .external 100 exBank [1, 2, 3, 4, 6]] ?_ (Nat.pair 7 5) 7 [1, 2, 3] (by decide)
    _ 0 true rfl (by decide +kernel) (by decide +kernel) (by decide +kernel) ?_ (by decide +kernel) (by decide +kernel)
  · rw [key]; decide +kernel
  · refine ⟨by decide, ?_⟩
    intro n b m h
    simp only [List.cons_append, List.nil_append, List.mem_cons, reduceCtorEq, List.not_mem_nil, or_false,
      false_or, Op.external.injEq] at h
    obtain ⟨_, _, rfl⟩ := h
    decide
  · intro e he
    simp only [run, List.mem_cons, List.not_mem_nil, or_false] at he
    rcases he with rfl | rfl | rfl
    · intro _ h; revert h; decide
    · intro _ h; revert h; decide
    · show ∀ a ∈ [1, 2, 3], a ∈ [1, 2, 3, 4, 6]
      decide

end Verif.Tips
