import Verif.TipsProperties

/-
C88: one open tip per reason; when the calls of the tips pallet are accepted.
-/

namespace Verif.Tips

/-- The tip with key `h` is gone: it was retracted, slashed or paid. -/
def gone (x h : Nat) (cfg : Cfg) (o : Option (AccId × AccId)) : Option (AccId × AccId) :=
  if o.map (fun t => cfg.hashOf x t.1) = some h then none else o

/-- The tip that is open for the reason with hash `x` (beneficiary and finder), as told by the calls
that succeeded. -/
def currentStep (cfg : Cfg) (x : Nat) (o : Option (AccId × AccId)) : State × Op × Out → Option (AccId × AccId)
  | (_, .report f r w, .done) => if cfg.hash r = x then some (w, f) else o
  | (_, .tipNew a r w _, .done) => if cfg.hash r = x then some (w, a) else o
  | (_, .creditNew a r w _, .done) => if cfg.hash r = x then some (w, a) else o
  | (_, .retract _ h, .done) => gone x h cfg o
  | (_, .slash _ h, .done) => gone x h cfg o
  | (_, .close h, .closed _ _) => gone x h cfg o
  | (_, .closeCredit h, .credited _ _) => gone x h cfg o
  | _ => o

/-- The tip open for a reason after a history. -/
def current (cfg : Cfg) (x : Nat) (tr : List (State × Op × Out)) : Option (AccId × AccId) :=
  tr.foldl (currentStep cfg x) none

structure CInv (cfg : Cfg) (s : State) (x : Nat) (o : Option (AccId × AccId)) : Prop where
  stored : ∀ w t, s.open_.get (cfg.hashOf x w) = some t → o = some (w, t.finder)
  found : ∀ w f, o = some (w, f) → ∃ t, s.open_.get (cfg.hashOf x w) = some t ∧ t.finder = f
  taken : s.reasons.contains x = o.isSome

theorem CInv.insertNew {cfg : Cfg} (hinj : ∀ a b c d, cfg.hashOf a b = cfg.hashOf c d → a = c ∧ b = d)
    {s s' : State} {x : Nat} {o : Option (AccId × AccId)} (h : CInv cfg s x o) {r : List Nat}
    (hr : s.reasons.contains (cfg.hash r) = false) {w f : AccId} {t : OpenTip} (ht : t.finder = f)
    (h1 : s'.reasons = s.reasons.insert (cfg.hash r) r) (h2 : s'.open_ = s.open_.insert (key cfg r w) t) :
    CInv cfg s' x (if cfg.hash r = x then some (w, f) else o) := by
  by_cases hx : cfg.hash r = x
  · subst hx
    rw [if_pos rfl]
    have ho : o = none := by
      have := h.taken
      rw [hr] at this
      cases o with
      | none => rfl
      | some _ => simp at this
    refine ⟨?_, ?_, ?_⟩
    · intro w' t' hg
      rw [h2, FMap.get_insert] at hg
      split at hg
      · rename_i e
        cases hg
        rw [(hinj _ _ _ _ e).2, ht]
      · have := h.stored w' t' hg
        rw [ho] at this; cases this
    · intro w' f' hg
      cases hg
      exact ⟨t, by rw [h2]; exact FMap.get_insert_self _ _ _, ht⟩
    · rw [h1]; simp [FMap.contains]
  · rw [if_neg hx]
    have hne : ∀ w', cfg.hashOf x w' ≠ key cfg r w := fun w' e => hx (hinj _ _ _ _ e).1.symm
    refine ⟨?_, ?_, ?_⟩
    · intro w' t' hg
      rw [h2, FMap.get_insert_ne _ _ (hne w')] at hg
      exact h.stored w' t' hg
    · intro w' f' hg
      rw [h2, FMap.get_insert_ne _ _ (hne w')]
      exact h.found w' f' hg
    · rw [h1, ← h.taken]
      unfold FMap.contains
      rw [FMap.get_insert_ne _ _ (fun e => hx e.symm)]

theorem CInv.insertOld {cfg : Cfg} {s s' : State} {x : Nat} {o : Option (AccId × AccId)} (h : CInv cfg s x o)
    {k : Nat} {t t' : OpenTip} (hg : s.open_.get k = some t) (hf : t'.finder = t.finder)
    (h1 : s'.reasons = s.reasons) (h2 : s'.open_ = s.open_.insert k t') : CInv cfg s' x o := by
  refine ⟨?_, ?_, by rw [h1]; exact h.taken⟩
  · intro w a ha
    rw [h2, FMap.get_insert] at ha
    split at ha
    · rename_i e
      cases ha
      rw [hf]
      exact h.stored w t (by rw [e]; exact hg)
    · exact h.stored w a ha
  · intro w f hw
    obtain ⟨a, ha, hfa⟩ := h.found w f hw
    rw [h2, FMap.get_insert]
    split
    · rename_i e
      rw [e, hg] at ha
      cases ha
      exact ⟨t', rfl, by rw [hf]; exact hfa⟩
    · exact ⟨a, ha, hfa⟩

theorem CInv.erase {cfg : Cfg} (hinj : ∀ a b c d, cfg.hashOf a b = cfg.hashOf c d → a = c ∧ b = d)
    {s s' : State} (hk : KInv cfg s) {x : Nat} {o : Option (AccId × AccId)}
    (h : CInv cfg s x o) {k : Nat} {t : OpenTip} (hg : s.open_.get k = some t)
    (h1 : s'.reasons = s.reasons.erase t.reason) (h2 : s'.open_ = s.open_.erase k) :
    CInv cfg s' x (gone x k cfg o) := by
  have hkey := hk.key k t hg
  by_cases hx : t.reason = x
  · subst hx
    have ho : o = some (t.who, t.finder) := h.stored t.who t (by rw [← hkey]; exact hg)
    have hgone : gone t.reason k cfg o = none := by
      unfold gone
      rw [ho, if_pos (by rw [hkey]; rfl)]
    rw [hgone]
    refine ⟨?_, (fun _ _ h => by cases h), ?_⟩
    · intro w a ha
      rw [h2, FMap.get_erase] at ha
      split at ha
      · cases ha
      · rename_i hne
        have := h.stored w a ha
        rw [ho] at this
        simp only [Option.some.injEq, Prod.mk.injEq] at this
        exact absurd (by rw [hkey, this.1]) hne
    · rw [h1]; simp [FMap.contains]
  · have hne : ∀ w, cfg.hashOf x w ≠ k := by
      intro w e
      rw [hkey] at e
      exact hx (hinj _ _ _ _ e).1.symm
    have hgone : gone x k cfg o = o := by
      unfold gone
      cases o with
      | none => simp
      | some p => rw [if_neg]; intro e; exact hne p.1 (Option.some.inj e)
    rw [hgone]
    refine ⟨?_, ?_, ?_⟩
    · intro w a ha
      rw [h2, FMap.get_erase_ne _ (hne w)] at ha
      exact h.stored w a ha
    · intro w f hw
      rw [h2, FMap.get_erase_ne _ (hne w)]
      exact h.found w f hw
    · rw [h1, ← h.taken]
      unfold FMap.contains
      rw [FMap.get_erase_ne _ (fun e => hx e.symm)]

theorem step_cinv {cfg : Cfg} (hinj : ∀ a b c d, cfg.hashOf a b = cfg.hashOf c d → a = c ∧ b = d) {s : State}
    (hk : KInv cfg s) {x : Nat} {o : Option (AccId × AccId)} (h : CInv cfg s x o) (op : Op) :
    CInv cfg (step cfg s op).1 x (currentStep cfg x o (s, op, (step cfg s op).2)) := by
  rcases step_shape cfg s op with ⟨e, hst⟩ | ⟨n, b, m, rfl, hst⟩ | ⟨a, rfl, hst⟩ |
    ⟨f, r, w, b, rfl, hr, _, _, _, hst⟩ | ⟨a, r, w, v, rfl, _, hr, hst⟩ | ⟨a, r, w, v, rfl, _, hr, hst⟩ |
    ⟨a, h', v, t, rfl, _, ht, hst⟩ | ⟨a, h', v, t, rfl, _, ht, hst⟩ | ⟨h', t, b, o', ht, hst, hcase⟩ <;> rw [hst]
  · have : currentStep cfg x o (s, op, .failed e) = o := by cases op <;> rfl
    rw [this]; exact h
  · exact ⟨h.stored, h.found, h.taken⟩
  · exact ⟨h.stored, h.found, h.taken⟩
  · exact h.insertNew hinj (w := w) (f := f) (t := ⟨cfg.hash r, w, f, cfg.depositBase + cfg.depositPerByte * r.length, none, [], true, []⟩) hr rfl rfl rfl
  · exact h.insertNew hinj (w := w) (f := a) (t := ⟨cfg.hash r, w, a, 0, none, [(a, v)], false, []⟩) hr rfl rfl rfl
  · exact h.insertNew hinj (w := w) (f := a) (t := ⟨cfg.hash r, w, a, 0, none, [], false, [(a, v)]⟩) hr rfl rfl rfl
  · exact h.insertOld (t' := insertTip cfg s t a v) ht rfl rfl rfl
  · exact h.insertOld (t' := insertCredit cfg s t a v) ht rfl rfl rfl
  · have : currentStep cfg x o (s, op, o') = gone x h' cfg o := by
      rcases hcase with ⟨rfl, rfl, _⟩ | ⟨rfl, rfl, _⟩ | ⟨v, n, rfl, rfl, _⟩ | ⟨v, n, rfl, rfl, _⟩ <;> rfl
    rw [this]
    exact h.erase hinj hk ht rfl rfl

theorem run_cinv {cfg : Cfg} (hinj : ∀ a b c d, cfg.hashOf a b = cfg.hashOf c d → a = c ∧ b = d) (x : Nat)
    (ops : List Op) : ∀ (s : State) (o : Option (AccId × AccId)), KInv cfg s → CInv cfg s x o →
    KInv cfg (run cfg s ops).1 ∧
    CInv cfg (run cfg s ops).1 x ((run cfg s ops).2.foldl (currentStep cfg x) o) := by
  induction ops with
  | nil => intro s o hk h; exact ⟨hk, h⟩
  | cons op ops ih => intro s o hk h; exact ih _ _ (step_kinv hinj hk op) (step_cinv hinj hk h op)

theorem cinv_at {cfg : Cfg} (hinj : ∀ a b c d, cfg.hashOf a b = cfg.hashOf c d → a = c ∧ b = d) (x : Nat)
    (bank : Bank) (ms : List AccId) (ops : List Op) :
    CInv cfg (run cfg (genesis bank ms) ops).1 x (current cfg x (run cfg (genesis bank ms) ops).2) :=
  (run_cinv hinj x ops _ none (genesis_kinv cfg bank ms)
    ⟨(fun w t h => by simp [genesis] at h), (fun _ _ h => by cases h), rfl⟩).2

/-- C88. At any time there is at most one open tip for a reason, and the pallet knows it: the tip stored
for a reason and a beneficiary is the one opened last for this reason and not yet retracted, slashed or
paid; a reason counts as used exactly as long as such a tip exists. -/
theorem C88_one_tip_per_reason (cfg : Cfg)
    (hinj : ∀ a b c d, cfg.hashOf a b = cfg.hashOf c d → a = c ∧ b = d) (bank : Bank) (ms : List AccId)
    (ops : List Op) (x : Nat) :
    let r := run cfg (genesis bank ms) ops
    (∀ w f, (∃ t, r.1.open_.get (cfg.hashOf x w) = some t ∧ t.finder = f) ↔ current cfg x r.2 = some (w, f)) ∧
    (r.1.reasons.contains x = true ↔ ∃ w f, current cfg x r.2 = some (w, f)) := by
  intro r
  have h := cinv_at hinj x bank ms ops
  refine ⟨fun w f => ⟨?_, h.found w f⟩, ?_⟩
  · rintro ⟨t, ht, rfl⟩; exact h.stored w t ht
  · rw [h.taken]
    cases hc : current cfg x (run cfg (genesis bank ms) ops).2 with
    | none => simp
    | some p => exact ⟨fun _ => ⟨p.1, p.2, rfl⟩, fun _ => rfl⟩

/-- An account can put down a deposit. -/
def canReserve (b : Bank) (a : AccId) (d : Balance) : Prop :=
  d = 0 ∨ (d ≤ b.free a ∧ b.frozen a ≤ b.free a - d ∧ (b.ed ≤ b.free a - d ∨ b.free a < b.ed))

theorem reserve_iff (b : Bank) (a : AccId) (d : Balance) :
    (∃ b', b.reserve a d = .ok b') ↔ canReserve b a d := by
  unfold Bank.reserve canReserve
  by_cases h0 : d = 0
  · simp [h0]
  by_cases h1 : b.free a < d
  · simp [h0, h1, Nat.not_le.2 h1]
  by_cases h2 : b.free a - d < b.frozen a
  · rw [if_neg h0, if_neg h1, if_pos h2]
    exact ⟨fun ⟨_, h⟩ => (by cases h), fun h => (by omega)⟩
  by_cases h3 : b.free a - d < b.ed ∧ b.ed ≤ b.free a
  · rw [if_neg h0, if_neg h1, if_neg h2, if_pos h3]
    exact ⟨fun ⟨_, h⟩ => (by cases h), fun h => (by omega)⟩
  · rw [if_neg h0, if_neg h1, if_neg h2, if_neg h3]
    exact ⟨fun _ => by omega, fun _ => ⟨_, rfl⟩⟩

/-- C88. When the calls succeed, after any history. Anyone may report, if the reason is not too long,
no tip for it is open and the deposit can be put down. Only council members may open tips of their own,
for reasons without open tip, and declare amounts, for open tips. Only the finder may retract an open
tip. Only the origin accepted for it may slash an open tip. Only root may set the payment address. -/
theorem C88_accepted (cfg : Cfg)
    (hinj : ∀ a b c d, cfg.hashOf a b = cfg.hashOf c d → a = c ∧ b = d) (bank : Bank) (ms : List AccId)
    (ops : List Op) :
    let tr := (run cfg (genesis bank ms) ops).2
    let s := (run cfg (genesis bank ms) ops).1
    (∀ f r w, (step cfg s (.report f r w)).2 = .done ↔ r.length ≤ cfg.maxReason ∧
      current cfg (cfg.hash r) tr = none ∧ canReserve s.bank f (cfg.depositBase + cfg.depositPerByte * r.length)) ∧
    (∀ a r w v, (step cfg s (.tipNew a r w v)).2 = .done ↔ a ∈ s.members ∧ current cfg (cfg.hash r) tr = none) ∧
    (∀ a r w v, (step cfg s (.creditNew a r w v)).2 = .done ↔ a ∈ s.members ∧ current cfg (cfg.hash r) tr = none) ∧
    (∀ a x w v, (step cfg s (.tip a (cfg.hashOf x w) v)).2 = .done ↔
      a ∈ s.members ∧ ∃ f, current cfg x tr = some (w, f)) ∧
    (∀ a x w v, (step cfg s (.creditTip a (cfg.hashOf x w) v)).2 = .done ↔
      a ∈ s.members ∧ ∃ f, current cfg x tr = some (w, f)) ∧
    (∀ a x w, (step cfg s (.retract a (cfg.hashOf x w))).2 = .done ↔ current cfg x tr = some (w, a)) ∧
    (∀ ok x w, (step cfg s (.slash ok (cfg.hashOf x w))).2 = .done ↔
      ok = true ∧ ∃ f, current cfg x tr = some (w, f)) ∧
    (∀ root a, (step cfg s (.setPot root a)).2 = .done ↔ root = true) := by
  intro tr s
  have hc : ∀ x, CInv cfg s x (current cfg x tr) := fun x => cinv_at hinj x bank ms ops
  have hn : ∀ x, current cfg x tr = none ↔ s.reasons.contains x = false := by
    intro x
    rw [(hc x).taken]
    cases current cfg x tr <;> simp
  have hs : ∀ x w, (∃ f, current cfg x tr = some (w, f)) ↔ ∃ t, s.open_.get (cfg.hashOf x w) = some t := by
    intro x w
    constructor
    · rintro ⟨f, hf⟩
      obtain ⟨t, ht, _⟩ := (hc x).found w f hf
      exact ⟨t, ht⟩
    · rintro ⟨t, ht⟩; exact ⟨_, (hc x).stored w t ht⟩
  refine ⟨?_, ?_, ?_, ?_, ?_, ?_, ?_, ?_⟩
  · intro f r w
    rw [hn, ← reserve_iff]
    simp only [step, body, report]
    by_cases h1 : cfg.maxReason < r.length
    · simp [h1, Nat.not_le.2 h1, Except.map]
    by_cases h2 : s.reasons.contains (cfg.hash r) = true
    · simp [h1, h2, Except.map]
    have h3 : s.open_.contains (key cfg r w) = false := by
      cases ho : s.open_.get (key cfg r w) with
      | none => simp [FMap.contains, ho]
      | some t =>
        have := (hc (cfg.hash r)).stored w t ho
        have h4 := (hc (cfg.hash r)).taken
        rw [this] at h4
        exact absurd h4 h2
    cases hres : s.bank.reserve f (cfg.depositBase + cfg.depositPerByte * r.length) with
    | error e => simp [h1, h2, h3, hres, liftBank, Except.map]
    | ok b => simp [h1, h2, h3, hres, liftBank, Except.map, Nat.not_lt.1 h1]
  · intro a r w v
    rw [hn]
    simp only [step, body, tipNew]
    by_cases h1 : a ∈ s.members <;> by_cases h2 : s.reasons.contains (cfg.hash r) = true <;>
      simp [h1, h2, Except.map]
  · intro a r w v
    rw [hn]
    simp only [step, body, creditNew]
    by_cases h1 : a ∈ s.members <;> by_cases h2 : s.reasons.contains (cfg.hash r) = true <;>
      simp [h1, h2, Except.map]
  · intro a x w v
    rw [hs]
    simp only [step, body, tip]
    by_cases h1 : a ∈ s.members <;> cases h2 : s.open_.get (cfg.hashOf x w) <;>
      simp [h1, Except.map]
  · intro a x w v
    rw [hs]
    simp only [step, body, creditTip]
    by_cases h1 : a ∈ s.members <;> cases h2 : s.open_.get (cfg.hashOf x w) <;>
      simp [h1, Except.map]
  · intro a x w
    simp only [step, body, retract]
    cases h2 : s.open_.get (cfg.hashOf x w) with
    | none =>
      simp only [Except.map, reduceCtorEq, false_iff]
      intro h
      obtain ⟨t, ht, _⟩ := (hc x).found w a h
      rw [h2] at ht; cases ht
    | some t =>
      rw [(hc x).stored w t h2]
      by_cases hf : t.finder = a <;> simp [hf, Except.map]
  · intro ok x w
    rw [hs]
    simp only [step, body, slash]
    cases ok <;> cases h2 : s.open_.get (cfg.hashOf x w) <;> simp [Except.map]
  · intro root a
    cases root <;> simp [step, body, setPot, Except.map]

/-- C88. A call that fails changes nothing. -/
theorem C88_failed (cfg : Cfg) (s : State) (op : Op) (e : Err) (h : (step cfg s op).2 = .failed e) :
    (step cfg s op).1 = s := by
  rcases step_shape cfg s op with ⟨e, hst⟩ | ⟨n, b, m, rfl, hst⟩ | ⟨a, rfl, hst⟩ |
    ⟨f, r, w, b, rfl, hr, _, _, _, hst⟩ | ⟨a, r, w, v, rfl, _, hr, hst⟩ | ⟨a, r, w, v, rfl, _, hr, hst⟩ |
    ⟨a, h', v, t, rfl, _, ht, hst⟩ | ⟨a, h', v, t, rfl, _, ht, hst⟩ | ⟨h', t, b, o', ht, hst, hcase⟩ <;>
    rw [hst] at h ⊢
  all_goals first | (cases h; done) | skip
  rcases hcase with ⟨_, rfl, _⟩ | ⟨_, rfl, _⟩ | ⟨v, n, _, rfl, _⟩ | ⟨v, n, _, rfl, _⟩ <;> cases h

/-- Account 8 reports account 5; a second tip for the same reason is refused, until account 8 retracts
(account 9 cannot). -/
example :
    let h := Nat.pair 7 5
    let r := run exCfg (genesis exBank [1, 2, 3, 4]) [.report 8 [7] 5, .report 9 [7] 6, .tipNew 1 [7] 6 100,
      .retract 9 h, .retract 8 h, .tipNew 8 [7] 6 100, .tipNew 1 [7] 6 100]
    r.2.map (fun e => e.2.2) = [.done, .failed .alreadyKnown, .failed .alreadyKnown, .failed .notFinder,
      .done, .failed .badOrigin, .done] ∧
    current exCfg 7 r.2 = some (6, 1) := by
  decide +kernel

end Verif.Tips
