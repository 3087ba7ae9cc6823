import Verif.Exit
import Verif.ChainOwn

/-
Property C139 on the whole chain: what an account has on deposit with the registry of devices, the tips and the
elections comes back whenever it wants, whatever happened before. No assumption on other pallets is left: that they
respect the deposits is C104 and C109. No new definitions of the code.
-/

namespace Verif.ExitChain

open Chain

/-- Calls of the account's own by which it ends what it takes part in: taking its device off the registry, retracting
tips, withdrawing its vote, resigning. -/
def exits (a : AccId) : World.Op → Prop
  | .node (.unregister x) => x = a
  | .tips (.retract x _) => x = a
  | .council (.removeVoter x) => x = a
  | .council (.renounce x _) => x = a
  | _ => False

/-- What the registry, the tips and the elections hold of an account. -/
def deposits (cfg : World.Cfg) (w : World.State) (a : AccId) : Balance :=
  (if w.node.devices.contains a then cfg.node.minLock else 0) + Tips.depositsOf w.tips a + Council.held w.council a

/-- Nothing of the account is left in the three pallets. -/
structure Left (w : World.State) (a : AccId) : Prop where
  device : w.node.devices.contains a = false
  tips : ∀ h t, w.tips.open_.get h = some t → t.finder = a → t.deposit = 0
  candidate : a ∉ w.council.candidates.map Prod.fst
  member : a ∉ w.council.members.map Council.Seat.who
  runnerUp : a ∉ w.council.runnersUp.map Council.Seat.who
  vote : w.council.voting.get a = none

theorem world_app (cfg : World.Cfg) (l m : List World.Op) : ∀ w, World.run cfg w (l ++ m) = World.run cfg (World.run cfg w l) m := by
  induction l with
  | nil => intro w; rfl
  | cons op l ih => intro w; exact ih _

/-- The tips first. -/
theorem leave_tips {cfg : World.Cfg} (a : AccId) : ∀ (n : Nat) (w : World.State), Tips.depositsOf w.tips a = n →
    ∃ calls : List World.Op, (∀ op ∈ calls, exits a op) ∧
      let w' := World.run cfg w calls
      (∀ h t, w'.tips.open_.get h = some t → t.finder = a → t.deposit = 0) := by
  intro n
  induction n using Nat.strongRecOn with
  | ind n ih =>
    intro w hn
    by_cases hex : ∃ h t, w.tips.open_.get h = some t ∧ t.finder = a ∧ t.deposit ≠ 0
    · obtain ⟨h, t, ht, hf, hd⟩ := hex
      have hst := Exit.retract_ok cfg.tips { w.tips with bank := w.bank } (a := a) ht hf
      have e : (World.step cfg w (.tips (.retract a h))).tips.open_ = w.tips.open_.erase h := by
        show (Tips.step cfg.tips { w.tips with bank := w.bank } (.retract a h)).1.open_ = _
        rw [hst]
      have hdep : Tips.depositsOf (World.step cfg w (.tips (.retract a h))).tips a + t.deposit = Tips.depositsOf w.tips a := by
        unfold Tips.depositsOf
        rw [e]
        have := FMap.sum_erase w.tips.open_ h fun _ t => if t.finder = a then t.deposit else 0
        rw [FMap.at?_some ht, if_pos hf] at this
        exact this
      obtain ⟨calls, c1, c2⟩ := ih _ (by omega) (World.step cfg w (.tips (.retract a h))) rfl
      refine ⟨.tips (.retract a h) :: calls, ?_, c2⟩
      intro op ho
      rcases List.mem_cons.1 ho with rfl | ho
      · exact rfl
      · exact c1 op ho
    · refine ⟨[], (fun op ho => by cases ho), ?_⟩
      intro w' h t ht hf
      by_cases hd : t.deposit = 0
      · exact hd
      · exact absurd ⟨h, t, ht, hf, hd⟩ hex

/-- Then the role. -/
theorem leave_role {cfg : World.Cfg} {w : World.State} (hi : World.Inv cfg w) (a : AccId) :
    ∃ calls : List World.Op, (∀ op ∈ calls, exits a op) ∧
      let w' := World.run cfg w calls
      ¬ Council.involved w'.council a ∧ w'.tips = w.tips := by
  by_cases hv : Council.involved w.council a
  · have hl : Council.Lists cfg.council { w.council with bank := w.bank } := World.council_lists_bank _ hi.council
    obtain ⟨r, -, h2, -⟩ := Exit.renounce_role (a := a) hl hv
    refine ⟨[.council (.renounce a r)], ?_, h2, rfl⟩
    intro op ho
    rw [List.mem_singleton.1 ho]
    exact rfl
  · exact ⟨[], (fun op ho => by cases ho), hv, rfl⟩

/-- Then the vote. -/
theorem leave_vote {cfg : World.Cfg} (w : World.State) (a : AccId) :
    ∃ calls : List World.Op, (∀ op ∈ calls, exits a op) ∧
      let w' := World.run cfg w calls
      w'.council.voting.get a = none ∧ w'.tips = w.tips ∧ w'.council.candidates = w.council.candidates ∧
      w'.council.members = w.council.members ∧ w'.council.runnersUp = w.council.runnersUp := by
  by_cases hv : w.council.voting.contains a = true
  · have e : Council.step cfg.council { w.council with bank := w.bank } (.removeVoter a) =
        (Council.doRemoveVoter { w.council with bank := w.bank } a, .done) := by
      simp only [Council.step, Council.attempt, Council.removeVoter, hv, if_true]
    refine ⟨[.council (.removeVoter a)], ?_, ?_⟩
    · intro op ho
      rw [List.mem_singleton.1 ho]
      exact rfl
    · have hc : (World.run cfg w [.council (.removeVoter a)]).council =
          { Council.doRemoveVoter { w.council with bank := w.bank } a with
            otherLock := (World.run cfg w [.council (.removeVoter a)]).council.otherLock } := by
        simp only [World.run, World.step, World.effect, World.settle, e]
      intro w'
      have hc' : w'.council = _ := hc
      rw [hc']
      exact ⟨FMap.get_erase_self _ _, rfl, rfl, rfl, rfl⟩
  · refine ⟨[], (fun op ho => by cases ho), ?_, rfl, rfl, rfl, rfl⟩
    show w.council.voting.get a = none
    cases hg : w.council.voting.get a with
    | none => rfl
    | some v => exact absurd ((FMap.contains_iff _ _).2 ⟨v, hg⟩) hv

/-- Last the device. -/
theorem leave_device {cfg : World.Cfg} (w : World.State) (a : AccId) :
    ∃ calls : List World.Op, (∀ op ∈ calls, exits a op) ∧
      let w' := World.run cfg w calls
      w'.node.devices.contains a = false ∧ w'.tips = w.tips ∧ w'.council.voting = w.council.voting ∧
      w'.council.candidates = w.council.candidates ∧ w'.council.members = w.council.members ∧
      w'.council.runnersUp = w.council.runnersUp := by
  cases hv : w.node.devices.contains a with
  | false => exact ⟨[], (fun op ho => by cases ho), hv, rfl, rfl, rfl, rfl, rfl⟩
  | true =>
    have e : (DeeperNode.step cfg.node { w.node with bank := w.bank } (.unregister a)).1.devices =
        (DeeperNode.tryRemove { w.node with bank := w.bank } a).devices.erase a := by
      simp only [DeeperNode.step, DeeperNode.body, DeeperNode.unregister, hv]
      rfl
    refine ⟨[.node (.unregister a)], ?_, ?_, rfl, rfl, rfl, rfl, rfl⟩
    · intro op ho
      rw [List.mem_singleton.1 ho]
      exact rfl
    · show (DeeperNode.step cfg.node { w.node with bank := w.bank } (.unregister a)).1.devices.contains a = false
      rw [e]
      cases hx : ((DeeperNode.tryRemove { w.node with bank := w.bank } a).devices.erase a).contains a with
      | false => rfl
      | true =>
        obtain ⟨v, hv⟩ := (FMap.contains_iff _ _).1 hx
        rw [FMap.get_erase_self] at hv
        cases hv

/-- Such calls leave alone what other pallets hold, and reserve nothing. -/
theorem exits_run {cfg : World.Cfg} (a : AccId) (calls : List World.Op) : ∀ (w : World.State), (∀ op ∈ calls, exits a op) →
    (World.run cfg w calls).others = w.others ∧ ∀ x, World.forced cfg w calls x = 0 := by
  induction calls with
  | nil => intro w _; exact ⟨rfl, fun _ => rfl⟩
  | cons op l ih =>
    intro w h
    obtain ⟨h1, h2⟩ := ih (World.step cfg w op) fun o ho => h o (List.mem_cons_of_mem _ ho)
    have h0 := h op List.mem_cons_self
    have h3 : (World.step cfg w op).others = w.others ∧ ∀ x, World.forcedBy cfg w op x = 0 := by
      unfold exits at h0
      split at h0
      · exact ⟨rfl, fun _ => rfl⟩
      · exact ⟨rfl, fun _ => rfl⟩
      · exact ⟨rfl, fun _ => rfl⟩
      · exact ⟨rfl, fun _ => rfl⟩
      · exact h0.elim
    refine ⟨h1.trans h3.1, fun x => ?_⟩
    show World.forcedBy cfg w op x + World.forced cfg (World.step cfg w op) l x = 0
    rw [h3.2, h2]

/-- In the common books of the pallets. -/
theorem leave_world {cfg : World.Cfg}
    (hinj : ∀ a b c d, cfg.tips.hashOf a b = cfg.tips.hashOf c d → a = c ∧ b = d) {w : World.State} (hi : World.Inv cfg w)
    (a : AccId) : ∃ calls : List World.Op, (∀ op ∈ calls, exits a op) ∧ Left (World.run cfg w calls) a ∧
      (World.run cfg w calls).bank.reserved a + deposits cfg w a = w.bank.reserved a := by
  have hrun : ∀ (l : List World.Op) {w : World.State}, World.Inv cfg w → World.Inv cfg (World.run cfg w l) := by
    intro l
    induction l with
    | nil => intro w h; exact h
    | cons o l ih => intro w h; exact ih (World.step_inv hinj h o)
  obtain ⟨c1, k1, t1⟩ := leave_tips (cfg := cfg) a _ w rfl
  obtain ⟨c2, k2, i2, t2⟩ := leave_role (cfg := cfg) (hrun c1 hi) a
  obtain ⟨c3, k3, v3, t3, a3, m3, r3⟩ := leave_vote (cfg := cfg) (World.run cfg (World.run cfg w c1) c2) a
  obtain ⟨c4, k4, d4, t4, v4, a4, m4, r4⟩ :=
    leave_device (cfg := cfg) (World.run cfg (World.run cfg (World.run cfg w c1) c2) c3) a
  have hk : ∀ op ∈ c1 ++ c2 ++ c3 ++ c4, exits a op := by
    intro op ho
    simp only [List.mem_append] at ho
    rcases ho with ((h | h) | h) | h
    · exact k1 op h
    · exact k2 op h
    · exact k3 op h
    · exact k4 op h
  have hl : Left (World.run cfg w (c1 ++ c2 ++ c3 ++ c4)) a := by
    rw [world_app, world_app, world_app]
    refine ⟨d4, ?_, ?_, ?_, ?_, ?_⟩
    · rw [t4, t3, t2]; exact t1
    · rw [a4, a3]; exact fun h => i2 (Or.inl h)
    · rw [m4, m3]; exact fun h => i2 (Or.inr (Or.inl h))
    · rw [r4, r3]; exact fun h => i2 (Or.inr (Or.inr h))
    · rw [v4]; exact v3
  refine ⟨_, hk, hl, ?_⟩
  have h1 := World.run_reserved hinj (c1 ++ c2 ++ c3 ++ c4) hi a
  obtain ⟨h2, h3⟩ := exits_run (cfg := cfg) a (c1 ++ c2 ++ c3 ++ c4) w hk
  rw [h3 a] at h1
  generalize World.run cfg w (c1 ++ c2 ++ c3 ++ c4) = w' at hl h1 h2
  have z1 : Tips.depositsOf w'.tips a = 0 := by
    unfold Tips.depositsOf
    apply FMap.sum_eq_zero
    intro k t ht
    split
    · rename_i hf; exact hl.tips k t ht hf
    · rfl
  have z2 : Council.held w'.council a = 0 := by
    have hno : ¬ Council.involved w'.council a := fun h => by
      rcases h with h | h | h
      · exact hl.candidate h
      · exact hl.member h
      · exact hl.runnerUp h
    unfold Council.held
    rw [Council.seatDeposit_zero hno, hl.vote]
    rfl
  simp only [World.owed, hl.device, z1, z2, h2] at h1
  simp only [deposits]
  simp only [Bool.false_eq_true, if_false] at h1
  omega

theorem chain_world (cfg : Cfg) (a : AccId) (calls : List World.Op) : ∀ (c : State), (∀ op ∈ calls, exits a op) →
    (run cfg c (calls.map .world)).w = World.run cfg.world c.w calls ∧ ¬ everPays cfg a c (calls.map .world) := by
  induction calls with
  | nil => intro c _; exact ⟨rfl, fun h => h⟩
  | cons op l ih =>
    intro c h
    have h0 := h op List.mem_cons_self
    have ho : worldOwn op = true ∧ ¬ pays cfg c a (.world op) := by
      unfold exits at h0
      split at h0
      · exact ⟨rfl, fun h => h⟩
      · exact ⟨rfl, fun h => h⟩
      · exact ⟨rfl, fun h => h⟩
      · exact ⟨rfl, fun h => h⟩
      · exact h0.elim
    have hs : step cfg c (.world op) = { c with w := World.step cfg.world c.w op } := by simp only [step, ho.1, if_true]
    obtain ⟨h1, h2⟩ := ih (step cfg c (.world op)) fun o ho => h o (List.mem_cons_of_mem _ ho)
    refine ⟨?_, ?_⟩
    · show (run cfg (step cfg c (.world op)) (l.map .world)).w = _
      rw [h1, hs]
      rfl
    · rintro (hp | hp)
      · exact ho.2 hp
      · exact h2 hp

/-- The invariant of the common books along the chain. -/
theorem chain_inv (cfg : Cfg)
    (hinj : ∀ a b c d, cfg.world.tips.hashOf a b = cfg.world.tips.hashOf c d → a = c ∧ b = d) (ops : List Op) :
    ∀ (c : State), World.Inv cfg.world c.w → World.settle c.w = c.w → World.Inv cfg.world (run cfg c ops).w := by
  have hrun : ∀ (l : List World.Op) {w : World.State}, World.Inv cfg.world w → World.Inv cfg.world (World.run cfg.world w l) := by
    intro l
    induction l with
    | nil => intro w h; exact h
    | cons o l ih => intro w h; exact ih (World.step_inv hinj h o)
  induction ops with
  | nil => intro c h _; exact h
  | cons op ops ih =>
    intro c h hs
    refine ih _ ?_ (settled_step cfg op hs)
    by_cases hw : ∃ o, op = .world o
    · obtain ⟨o, rfl⟩ := hw
      simp only [step]
      split
      · exact World.step_inv hinj h o
      · exact h
    · obtain ⟨ws, -, e⟩ := C109_refines cfg c hs op fun o he => hw ⟨o, he⟩
      rw [← e]
      exact hrun ws h

/-- C139 on the whole chain. After any history of the chain, whatever all the pallets and accounts did, every account
can by calls of its own leave the registry of devices, the tips and the elections: nothing of it is left there, exactly
what these held of it is no longer reserved, and all of that is free again. -/
theorem C139_chain (cfg : Cfg) (hp : cfg.world.micro.burnPercent ≤ 100)
    (hinj : ∀ a b c d, cfg.world.tips.hashOf a b = cfg.world.tips.hashOf c d → a = c ∧ b = d)
    {c : State} (g : World.Genesis cfg.world c.w) (hs : World.settle c.w = c.w) (hb : Solid c.w.bank) (ops : List Op) (a : AccId) :
    let d := run cfg c ops
    ∃ calls : List World.Op, (∀ op ∈ calls, exits a op) ∧
      let d' := run cfg d (calls.map .world)
      Left d'.w a ∧ d'.w.bank.reserved a + deposits cfg.world d.w a = d.w.bank.reserved a ∧
      d.w.bank.free a + deposits cfg.world d.w a ≤ d'.w.bank.free a := by
  intro d
  have hi : World.Inv cfg.world d.w := chain_inv cfg hinj ops c (World.genesis_inv g) hs
  obtain ⟨calls, h1, h2, h3⟩ := leave_world hinj hi a
  obtain ⟨e, hn⟩ := chain_world cfg a calls d h1
  have ht := C115_history hp d (C115_solid hp c hb ops) (calls.map .world) a hn
  refine ⟨calls, h1, ?_⟩
  intro d'
  have e' : d'.w = World.run cfg.world d.w calls := e
  have ht' : d.w.bank.total a ≤ d'.w.bank.total a := ht
  rw [← e'] at h2 h3
  refine ⟨h2, h3, ?_⟩
  simp only [Bank.total] at ht'
  omega

/-- Account 1 registers a device, reports a tip, is a candidate and votes; a locker member reserves 30 of it and another
pallet 3; then what happens in `Chain.exOps`. -/
def exHist : List Op := (World.exOps.filter fun op => worldOwn op).map .world ++ Chain.exOps

/-- The hypotheses of `C139_chain` are met. -/
example := C139_chain Chain.exCfg (by decide) Tips.exCfg_inj (c := exStart) World.exWorld_genesis exStart_start.locks exSolid exHist 1

/-- What is held of account 1, and the four calls with which it gets all of it back. -/
example :
    let d := run Chain.exCfg exStart exHist
    let d' := run Chain.exCfg d (([.tips (.retract 1 (Tips.key Tips.exCfg [7] 5)), .council (.renounce 1 (.candidate 1)),
      .council (.removeVoter 1), .node (.unregister 1)] : List World.Op).map .world)
    deposits Chain.exCfg.world d.w 1 = 223 ∧ d.w.bank.reserved 1 = 256 ∧ d'.w.bank.reserved 1 = 33 ∧
    d.w.bank.free 1 = 530 ∧ d'.w.bank.free 1 = 753 := by
  decide +kernel

end Verif.ExitChain
