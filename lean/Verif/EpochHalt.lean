import Verif.EpochProperties

/-!
# Sessions, eras and slashes on the chain: C126

The chain does not stop when sessions change or offences are reported, as long as nobody's credit record is deleted.
-/

namespace Verif.Epoch

open Verif
open Verif.Penalty (Fine Keeps credit deletes Reasonable)
open Verif.Payout (Fits Start)

/-! ### Specification -/

/-- The call deletes a credit record. -/
def Op.deletes : Op → Bool
  | .other op => Penalty.deletes op
  | _ => false

/-- The call makes no history of credit end in the future. -/
def Op.reasonable (cfg : Cfg) (s : State) : Op → Prop
  | .other op => Penalty.Reasonable cfg.chain s.c op
  | _ => True

/-! ### The invariant -/

/-- Everybody named in an exposure that can still be reported has credit. -/
structure Tame (cfg : Cfg) (s : State) : Prop where
  fine : ∃ ps, Fine cfg.chain s.c ps
  roots : ∀ k r, s.roots.get k = some r → ∀ p ∈ r, ∀ a ∈ p.2.others, credit s.c a ≠ none

theorem Tame.map {cfg : Cfg} {s t : State} (h : Tame cfg s) (hf : ∃ ps, Fine cfg.chain t.c ps) (hk : Keeps s.c t.c)
    (hr : ∀ k r, t.roots.get k = some r → ∃ k', s.roots.get k' = some r) : Tame cfg t :=
  ⟨hf, fun k r hkr p hp a ha => by
    obtain ⟨k', h'⟩ := hr k r hkr
    exact hk a (h.roots k' r h' p hp a ha)⟩

theorem dele_fine {cfg : Cfg} (hf : Fits cfg.chain) {c : Chain.State} (h : ∃ ps, Fine cfg.chain c ps) (op : Delegation.Op)
    (hd : deletes (.pay (.chain (.dele op))) = false) : (∃ ps, Fine cfg.chain (dele cfg c op) ps) ∧ Keeps c (dele cfg c op) := by
  obtain ⟨ps, h⟩ := h
  obtain ⟨⟨qs, h1⟩, h2, _⟩ := Penalty.step_fine hf h (.pay (.chain (.dele op))) trivial (fun x hx => by cases hx) hd
  exact ⟨⟨_, h1⟩, h2⟩

theorem end_tame {cfg : Cfg} (hf : Fits cfg.chain) {s : State} (h : Tame cfg s) : Tame cfg (endSession cfg s) := by
  unfold endSession
  split
  · obtain ⟨h1, h2⟩ := dele_fine hf h.fine (.endEra _) rfl
    exact h.map h1 h2 fun k r hk => ⟨k, hk⟩
  · exact h

theorem prune_some {cfg : Cfg} {c : Chain.State} {m : FMap Nat Root} {k : Nat} {r : Root} (h : (prune cfg c m).get k = some r) : m.get k = some r := by
  unfold prune at h
  split at h
  · split at h
    · have : ∀ (l : List Nat) (m : FMap Nat Root), (l.foldl (fun m j => m.erase j) m).get k = some r → m.get k = some r := by
        intro l
        induction l with
        | nil => intro m h; exact h
        | cons j l ih =>
          intro m h
          have := ih _ h
          rw [FMap.get_erase] at this
          split at this
          · cases this
          · exact this
      exact this _ _ h
    · exact h
  · exact h

theorem start_tame {cfg : Cfg} (hf : Fits cfg.chain) {s : State} (h : Tame cfg s) : ∃ t, startSession cfg s = some t ∧ Tame cfg t := by
  unfold startSession
  split
  · exact ⟨s, rfl, h⟩
  · split
    · obtain ⟨ps, hp⟩ := h.fine
      obtain ⟨⟨qs, h1⟩, h2, h3⟩ := Penalty.step_fine hf hp (.startEra s.session) trivial (fun x hx => by cases hx) rfl
      split
      · rename_i hh
        rw [hh] at h3
        exact absurd rfl h3
      · rename_i c o _ hh
        rw [hh] at h1 h2
        exact ⟨_, rfl, h.map ⟨_, h1⟩ h2 fun k r hk => ⟨k, prune_some hk⟩⟩
    · exact ⟨s, rfl, h⟩

theorem new_tame {cfg : Cfg} (hf : Fits cfg.chain) {s : State} (h : Tame cfg s) (idx : Nat) (order : List AccId) : Tame cfg (newSession cfg s idx order).1 := by
  unfold newSession
  by_cases hp : Session.plans cfg.ses (view s) idx = true
  · obtain ⟨h1, h2⟩ := dele_fine hf h.fine (.newEra order) rfl
    simp only [hp, if_true]
    exact h.map h1 h2 fun k r hk => ⟨k, hk⟩
  · simp only [hp]
    exact h.map h.fine (fun _ => id) fun k r hk => ⟨k, hk⟩

theorem exposure_credit {cfg : Cfg} {s : State} (h : Tame cfg s) (e : Nat) (v : AccId) : ∀ a ∈ (exposure s.c e v).others, credit s.c a ≠ none := by
  intro a ha
  unfold exposure at ha
  cases hx : s.c.stk.dele.stakers.get (e, v) with
  | none => rw [hx] at ha; cases ha
  | some x =>
    rw [hx] at ha
    obtain ⟨ps, hp⟩ := h.fine
    exact hp.safe.recorded _ x hx a ha

theorem note_tame {cfg : Cfg} {s : State} (h : Tame cfg s) (idx : Nat) (keys : AccId → Bool) (l : Option (List AccId)) (vs qs : List AccId) :
    Tame cfg { s with roots := note s idx keys l, validators := vs, queued := qs } := by
  refine ⟨h.fine, fun k r hk p hp a ha => ?_⟩
  by_cases hki : k = idx
  · subst hki
    unfold note at hk
    simp only at hk
    split at hk
    · rw [FMap.get_insert_self] at hk
      cases hk
      obtain ⟨v, _, rfl⟩ := List.mem_map.1 hp
      exact exposure_credit h _ _ a ha
    · split at hk
      · rename_i r' hr'
        rw [FMap.get_insert_self] at hk
        cases hk
        exact h.roots _ _ hr' p hp a ha
      · exact h.roots _ _ hk p hp a ha
  · rw [show FMap.get _ k = _ from note_other s idx keys l hki] at hk
    exact h.roots _ _ hk p hp a ha

theorem rotate_tame {cfg : Cfg} (hf : Fits cfg.chain) {s : State} (h : Tame cfg s) (order : List AccId) (keys : AccId → Bool) :
    ∃ t, rotate cfg s order keys = some t ∧ Tame cfg t := by
  have h1 := end_tame hf h
  obtain ⟨t, ht, h2⟩ := start_tame hf (s := { endSession cfg s with session := s.session + 1, validators := s.queued })
    ⟨h1.fine, h1.roots⟩
  have h3 := new_tame hf h2 (s.session + 2) order
  refine ⟨_, ?_, note_tame h3 (s.session + 2) keys (newSession cfg t (s.session + 2) order).2 (newSession cfg t (s.session + 2) order).1.validators (((newSession cfg t (s.session + 2) order).2.getD s.queued).filter keys)⟩
  unfold rotate
  rw [ht]; rfl

/-- What a shorter history leaves alone. -/
theorem clear_frame (l : List Nat) : ∀ (s : Session.State) (k : Nat × AccId) (x : Slashing.Exposure),
    let t := l.foldl Session.clearEra s
    t.del.delegators = s.del.delegators ∧ t.del.candidates = s.del.candidates ∧ t.del.active = s.del.active ∧ t.del.count = s.del.count ∧
    t.del.block = s.del.block ∧ (t.del.stakers.get k = some x → s.del.stakers.get k = some x) := by
  induction l with
  | nil => intro s k x; exact ⟨rfl, rfl, rfl, rfl, rfl, id⟩
  | cons e l ih =>
    intro s k x
    obtain ⟨h1, h2, h3, h4, h5, h6⟩ := ih (Session.clearEra s e) k x
    refine ⟨h1, h2, h3, h4, h5, fun h => ?_⟩
    have := h6 h
    rw [show (Session.clearEra s e).del.stakers = (s.del.stakers.keys.filter fun k => decide (k.1 = e)).foldl (fun m k => m.erase k) s.del.stakers from rfl, erase_all] at this
    split at this
    · cases this
    · exact this

theorem depth_frame (s : Session.State) (d : Nat) (k : Nat × AccId) (x : Slashing.Exposure) :
    let t := Session.setHistoryDepth s d
    t.del.delegators = s.del.delegators ∧ t.del.candidates = s.del.candidates ∧ t.del.active = s.del.active ∧ t.del.count = s.del.count ∧
    t.del.block = s.del.block ∧ (t.del.stakers.get k = some x → s.del.stakers.get k = some x) := by
  intro t
  show _ ∧ _
  simp only [t]
  unfold Session.setHistoryDepth
  split
  · exact ⟨rfl, rfl, rfl, rfl, rfl, id⟩
  · exact clear_frame _ s k x

theorem depth_tame {cfg : Cfg} {s : State} (h : Tame cfg s) (d : Nat) : Tame cfg (setHistoryDepth s d) := by
  obtain ⟨ps, hp⟩ := h.fine
  have F := depth_frame (view s) d
  have e1 : (setHistoryDepth s d).c.stk.dele.delegators = s.c.stk.dele.delegators := (F (0, 0) ⟨0, 0, []⟩).1
  have e2 : (setHistoryDepth s d).c.stk.dele.candidates = s.c.stk.dele.candidates := (F (0, 0) ⟨0, 0, []⟩).2.1
  have e3 : (setHistoryDepth s d).c.stk.dele.active = s.c.stk.dele.active := (F (0, 0) ⟨0, 0, []⟩).2.2.1
  have e4 : (setHistoryDepth s d).c.stk.dele.count = s.c.stk.dele.count := (F (0, 0) ⟨0, 0, []⟩).2.2.2.1
  have e5 : (setHistoryDepth s d).c.stk.dele.block = s.c.stk.dele.block := (F (0, 0) ⟨0, 0, []⟩).2.2.2.2.1
  refine ⟨⟨ps, ⟨?_, ?_, hp.good.locks⟩, ⟨fun a hn y hy => ?_, fun k x hx => ?_, hp.safe.waiting⟩⟩, h.roots⟩
  · refine ⟨?_, hp.good.inv.core, hp.good.inv.env, ?_⟩
    · rw [e5]; exact hp.good.inv.clock
    · have := hp.good.inv.marks
      unfold Delegation.creditEra at this ⊢
      rw [e5, e1]; exact this
  · unfold Delegation.GInv
    rw [e1, e2, e3, e4]; exact hp.good.graph
  · rw [e1] at hy
    exact hp.safe.delegating a hn y hy
  · exact hp.safe.recorded k x ((F k x).2.2.2.2.2 hx)

theorem step_tame {cfg : Cfg} (hf : Fits cfg.chain) {s : State} (h : Tame cfg s) (op : Op) (hr : op.reasonable cfg s) (hd : op.deletes = false) :
    Tame cfg (step cfg s op).1 ∧ (step cfg s op).2 ≠ .halted := by
  cases op with
  | rotate order keys =>
    obtain ⟨t, ht, h1⟩ := rotate_tame hf h order keys
    simp only [step, ht]
    exact ⟨h1, by simp⟩
  | author v =>
    simp only [step]
    split
    · exact ⟨h, by simp⟩
    · obtain ⟨h1, h2⟩ := dele_fine hf h.fine (.addPoints _ v 20) rfl
      exact ⟨h.map h1 h2 fun k r hk => ⟨k, hk⟩, by simp⟩
  | finalize => exact ⟨⟨h.fine, h.roots⟩, by simp [step]⟩
  | forceNewEra => exact ⟨⟨h.fine, h.roots⟩, by simp [step]⟩
  | forceNoEras => exact ⟨⟨h.fine, h.roots⟩, by simp [step]⟩
  | forceNewEraAlways => exact ⟨⟨h.fine, h.roots⟩, by simp [step]⟩
  | offenderDisabled => exact ⟨⟨h.fine, h.roots⟩, by simp [step]⟩
  | setHistoryDepth d => exact ⟨depth_tame h d, by simp [step]⟩
  | configure e n m w =>
    obtain ⟨h1, h2⟩ := dele_fine hf h.fine (.configure e n m w s.c.stk.dele.historyDepth) rfl
    exact ⟨h.map h1 h2 fun k r hk => ⟨k, hk⟩, by simp [step]⟩
  | report k v f rs =>
    simp only [step]
    cases hi : identify s k v with
    | none => exact ⟨h, by simp⟩
    | some x =>
      have hx : ∀ a ∈ x.others, credit s.c a ≠ none := by
        unfold identify at hi
        split at hi
        · obtain ⟨e, _, rfl⟩ := Option.map_eq_some_iff.1 hi
          exact exposure_credit h e v
        · obtain ⟨r, hr1, hr2⟩ := Option.bind_eq_some_iff.1 hi
          obtain ⟨p, hp, rfl⟩ := Option.map_eq_some_iff.1 hr2
          exact h.roots k r hr1 p (List.mem_of_find?_eq_some hp)
      obtain ⟨ps, hp⟩ := h.fine
      obtain ⟨⟨qs, h1⟩, h2, h3⟩ := Penalty.step_fine hf hp (.offence (activeStart s) k v x f rs) trivial (fun y hy => by cases hy; exact hx) rfl
      exact ⟨h.map ⟨_, h1⟩ h2 fun k r hk => ⟨k, hk⟩, h3⟩
  | other op =>
    simp only [step]
    by_cases ho : isOther op = true
    · rw [if_pos ho]
      obtain ⟨ps, hp⟩ := h.fine
      obtain ⟨⟨qs, h1⟩, h2, h3⟩ := Penalty.step_fine hf hp op hr (fun y hy => by cases op <;> first | (cases ho; done) | (cases hy; done)) hd
      exact ⟨h.map ⟨_, h1⟩ h2 fun k r hk => ⟨k, hk⟩, h3⟩
    · rw [if_neg ho]
      exact ⟨h, by simp⟩

theorem genesis_tame {cfg : Cfg} (hf : Fits cfg.chain) {c : Chain.State} (h : ∃ ps, Fine cfg.chain c ps) (f : Session.Forcing) (order fb : List AccId) :
    Tame cfg (genesis cfg c f order fb) := by
  have h0 : Tame cfg ⟨c, 0, false, ∅, f, [], [], ∅⟩ := ⟨h, fun k r hk => by cases hk⟩
  have hplan : ∀ (s : State) (idx : Nat), Tame cfg s → Tame cfg (plan cfg s idx order).1 := fun s idx hs =>
    note_tame (new_tame hf hs idx order) idx (fun _ => true) (newSession cfg s idx order).2 (newSession cfg s idx order).1.validators (newSession cfg s idx order).1.queued
  have h2 := hplan _ 1 (hplan _ 0 h0)
  unfold genesis
  simp only
  generalize hs : ({ (plan cfg (plan cfg _ 0 order).1 1 order).1 with validators := _, queued := _ } : State) = s
  have h3 : Tame cfg s := by rw [← hs]; exact ⟨h2.fine, h2.roots⟩
  obtain ⟨t, ht, h4⟩ := start_tame hf h3
  rw [ht]; exact h4

theorem run_tame {cfg : Cfg} (hf : Fits cfg.chain) (ops : List Op) : ∀ {s : State}, Tame cfg s → (∀ e ∈ (run cfg s ops).2, e.2.1.reasonable cfg e.1) →
    (∀ op ∈ ops, op.deletes = false) → Tame cfg (run cfg s ops).1 ∧ ∀ e ∈ (run cfg s ops).2, e.2.2 ≠ .halted := by
  induction ops with
  | nil => intro s h _ _; exact ⟨h, fun e he => by cases he⟩
  | cons op ops ih =>
    intro s h hr hd
    obtain ⟨h1, h2⟩ := step_tame hf h op (hr (s, op, (step cfg s op).2) (List.mem_cons_self ..)) (hd op (List.mem_cons_self ..))
    obtain ⟨h3, h4⟩ := ih h1 (fun e he => hr e (List.mem_cons_of_mem _ he)) (fun o ho => hd o (List.mem_cons_of_mem _ ho))
    refine ⟨h3, fun e he => ?_⟩
    rcases List.mem_cons.1 he with rfl | he
    · exact h2
    · exact h4 e he

/-! ### C126 -/

/-- The state before the first block: what the accounts set up. -/
structure Setup (cfg : Chain.Cfg) (c c0 : Chain.State) (ops : List Penalty.Op) : Prop where
  start : Start c
  locks : World.settle c.w = c.w
  empty : ∃ bank m, c.stk.dele = Delegation.genesis bank m
  unapplied : c.slash.unapplied = ∅
  quiet : ∀ op ∈ ops, Penalty.isOffence op = false ∧ Penalty.deletes op = false
  reasonable : ∀ e ∈ (Penalty.run cfg c ops).2, Reasonable cfg e.1 e.2.1
  result : c0 = (Penalty.run cfg c ops).1

theorem Setup.fine {cfg : Chain.Cfg} (hf : Fits cfg) {c c0 : Chain.State} {ops : List Penalty.Op} (h : Setup cfg c c0 ops) : ∃ ps, Fine cfg c0 ps := by
  rw [h.result]
  refine (Penalty.fine_run hf ⟨Payout.good_start h.start h.locks h.empty, ⟨fun a _ d hd => ?_, fun k x hk => ?_, fun a ha => ?_⟩⟩ ops h.reasonable
    (fun n i j v x f rs hn => ?_) (fun op ho => (h.quiet op ho).2)).1
  · rw [h.start.nobody] at hd; cases hd
  · obtain ⟨bank, m, e⟩ := h.empty
    rw [e] at hk; cases hk
  · obtain ⟨e, u, he, _⟩ := ha
    rw [h.unapplied] at he; cases he
  · have := (h.quiet _ (List.mem_of_getElem? hn)).1
    cases this

/-- C126, without calls that delete a credit record: the chain never stops at a change of sessions or a report of an
offence. What is missing are forced unstaking and penalties of `u64::MAX`: see `C126_halts`. -/
theorem C126_no_halt_partial (cfg : Cfg) (hf : Fits cfg.chain) {c c0 : Chain.State} {setup : List Penalty.Op} (h : Setup cfg.chain c c0 setup)
    (f : Session.Forcing) (order fb : List AccId) (ops : List Op) (hr : ∀ e ∈ (hist cfg c0 f order fb ops).2, e.2.1.reasonable cfg e.1)
    (hd : ∀ op ∈ ops, op.deletes = false) :
    ∀ e ∈ (hist cfg c0 f order fb ops).2, e.2.2 ≠ .halted :=
  (run_tame hf ops (genesis_tame hf (h.fine hf) f order fb) hr hd).2

/-! ### Examples -/

theorem run_ops (cfg : Cfg) (ops : List Op) : ∀ (s : State), ∀ e ∈ (run cfg s ops).2, e.2.1 ∈ ops := by
  induction ops with
  | nil => intro s e he; cases he
  | cons o ops ih =>
    intro s e he
    rcases List.mem_cons.1 he with rfl | he
    · exact List.mem_cons_self ..
    · exact List.mem_cons_of_mem _ (ih _ e he)

theorem setup_ops (cfg : Chain.Cfg) (ops : List Penalty.Op) : ∀ (c : Chain.State), ∀ e ∈ (Penalty.run cfg c ops).2, e.2.1 ∈ ops := by
  induction ops with
  | nil => intro s e he; cases he
  | cons o ops ih =>
    intro s e he
    rcases List.mem_cons.1 he with rfl | he
    · exact List.mem_cons_self ..
    · exact List.mem_cons_of_mem _ (ih _ e he)

theorem exFits : Fits exCfg.chain := ⟨rfl, by decide⟩

theorem exSetup_setup : Setup exCfg.chain Payout.exStart exFresh exSetup := by
  refine ⟨Payout.exStart_start, Chain.exStart_start.locks, ⟨_, _, rfl⟩, rfl, by decide, fun e he => ?_, rfl⟩
  have h := setup_ops _ _ _ e he
  simp only [exSetup, Payout.exOps, List.cons_append, List.take_succ_cons, List.take_zero, List.map_cons, List.map_nil, List.nil_append, List.mem_cons, List.not_mem_nil, or_false] at h
  rcases h with h | h | h | h | h | h <;> (rw [h]; trivial)

/-- Validator 1 is reported in era 2, and the slash is applied when era 4 begins. -/
def exSlashed : List Op := exOps ++ [.report 4 1 500000000 [], exRotate, exRotate, exRotate, exRotate]

/-- The hypotheses of `C126_no_halt_partial` are met; account 7 has lost one step of its credit. -/
example :
    (∀ e ∈ (hist exCfg exFresh .notForcing [1, 2] [] exSlashed).2, e.2.2 ≠ .halted) ∧
    (credit (hist exCfg exFresh .notForcing [1, 2] [] exOps).1.c 7).map (·.credit) = some 130 ∧
    (credit (hist exCfg exFresh .notForcing [1, 2] [] exSlashed).1.c 7).map (·.credit) = some 90 := by
  refine ⟨C126_no_halt_partial exCfg exFits exSetup_setup .notForcing [1, 2] [] exSlashed (fun e he => ?_) (by decide), ?_, ?_⟩
  · have h := run_ops _ _ _ e he
    simp only [exSlashed, exOps, exRotate, List.cons_append, List.nil_append, List.mem_cons, List.not_mem_nil, or_false] at h
    rcases h with h | h | h | h | h | h | h | h | h | h <;> (rw [h]; trivial)
  · decide +kernel
  · decide +kernel

/-- C126: the full statement is false. Root unstakes a delegator of a reported validator by force; when the slash is due,
the session change stops the chain. -/
theorem C126_halts : ¬ ∀ (cfg : Cfg) (_ : Fits cfg.chain) (c c0 : Chain.State) (setup : List Penalty.Op) (_ : Setup cfg.chain c c0 setup)
    (f : Session.Forcing) (order fb : List AccId) (ops : List Op) (_ : ∀ e ∈ (hist cfg c0 f order fb ops).2, e.2.1.reasonable cfg e.1),
    ∀ e ∈ (hist cfg c0 f order fb ops).2, e.2.2 ≠ .halted := by
  intro h
  have := h exCfg exFits Payout.exStart exFresh exSetup exSetup_setup .notForcing [1, 2] []
    (exOps ++ [.report 4 1 500000000 [], .other (.pay (.chain (.dele (.forceUnstaking true 7)))), exRotate, exRotate, exRotate, exRotate]) (fun e he => by
      have h := run_ops _ _ _ e he
      simp only [exOps, exRotate, List.cons_append, List.nil_append, List.mem_cons, List.not_mem_nil, or_false] at h
      rcases h with h | h | h | h | h | h | h | h | h | h | h <;> (rw [h]; trivial))
  have hany : (hist exCfg exFresh .notForcing [1, 2] [] (exOps ++ [.report 4 1 500000000 [], .other (.pay (.chain (.dele (.forceUnstaking true 7)))), exRotate, exRotate, exRotate, exRotate])).2.any
      (fun e => e.2.2.stops) = true := by decide +kernel
  obtain ⟨e, he, hs⟩ := List.any_eq_true.1 hany
  exact this e he ((Penalty.stops_iff _).1 hs)

end Verif.Epoch
