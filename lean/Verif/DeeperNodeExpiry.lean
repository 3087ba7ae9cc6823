import Verif.DeeperNodeProperties

/-
Property C83: expiry of server registrations.
-/

namespace Verif.DeeperNode

/-! ### Specification -/

/-- End of the registration after one successful call of the device itself at block `now`; `serving`
says whether the device is in the directory already. -/
def expiryAfter (cfg : Cfg) (now : Nat) (serving : Bool) (old : Option Nat) : Op → Option Nat
  | .register _ _ => some now
  | .unregister _ => none
  | .registerServer _ eras => if serving then old else some (now + eras * cfg.blocksPerEra)
  | .updateServer _ eras => some (now + eras * cfg.blocksPerEra)
  | .unregisterServer _ => some now
  | _ => old

/-- Is the device offered as server? -/
def serving (st : Standing) : Bool := st.any Prod.snd

/-- Standing and end of the registration of `a` after one call. -/
def expiryStep (cfg : Cfg) (a : AccId) (x : Standing × Option Nat) (e : State × Op × Out) :
    Standing × Option Nat :=
  (standingStep a x.1 e,
    match e.2.2 with
    | .failed _ => x.2
    | _ => if e.2.1.caller = some a then expiryAfter cfg e.1.block (serving x.1) x.2 e.2.1 else x.2)

/-- End of the registration of `a` after a history. -/
def expiry (cfg : Cfg) (a : AccId) (tr : List (State × Op × Out)) : Option Nat :=
  (tr.foldl (expiryStep cfg a) (none, none)).2

/-- The duration asked for by a call. -/
def asksFor : Op → Option (AccId × Nat)
  | .registerServer a n | .updateServer a n => some (a, n)
  | _ => none

/-! ### Proofs -/

theorem tryRemove_devices {s : State} {a : AccId} {node : Node} (hd : s.devices.get a = some node) :
    (tryRemove s a).devices = s.devices.insert a { node with expire := s.block } ∧
    (tryRemove s a).block = s.block := by
  have hb : ∀ (s : State) l a c, (regionRemove s l a c).block = s.block := by
    intro s l a c; unfold regionRemove; split <;> rfl
  have hb' : ∀ (s : State) l a c, (countryRemove s l a c).block = s.block := by
    intro s l a c; unfold countryRemove; split <;> rfl
  unfold tryRemove
  rw [hd]
  simp [hb, hb']

theorem tryAdd_devices {s : State} {st : AccId → Standing} (h : Inv s st) {a : AccId} {node : Node}
    {b : Bool} (hd : s.devices.get a = some node) (hst : st a = some (node.country, b)) (n : Nat) :
    (tryAdd s a n).devices =
      if b then s.devices else s.devices.insert a { node with expire := s.block + n } := by
  cases b with
  | true =>
    have hm : a ∈ countryList s node.country := (h.cmem a _).2 hst
    have : tryAdd s a n = s := by
      unfold tryAdd countryInsert found
      simp [hd, hm]
    rw [this]; rfl
  | false =>
    have hm : a ∉ countryList s node.country := by
      intro hm; rw [h.cmem, hst] at hm; cases hm
    have hr : ∀ r, a ∉ regionList s r := by
      intro r hm
      rw [h.rmem] at hm
      obtain ⟨c, hc, _⟩ := hm
      rw [hst] at hc; cases hc
    have hne := region_ne (h.code a _ _ hst)
    have h1 : (countryList s node.country).contains a = false := by simpa using hm
    have h2 : ∀ r, (regionList s r).contains a = false := fun r => by simpa using hr r
    unfold tryAdd countryInsert regionInsert found
    simp only [hd, Option.getD_some, h1, Bool.false_eq_true, if_false, Bool.not_true]
    have e1 : ∀ x, regionList { s with byCountry := x } = regionList s := fun _ => rfl
    rw [e1]
    simp only [h2, Bool.false_eq_true, if_false, Bool.not_true]
    have e2 : ∀ x l, regionList { s with byCountry := x, byRegion := s.byRegion.insert (region node.country) l }
        (region (region node.country)) = regionList s (region (region node.country)) := by
      intro x l
      simp only [regionList, FMap.get_insert_ne _ _ (Ne.symm hne)]
    rw [e2]
    simp only [h2, Bool.false_eq_true, if_false, Bool.not_true]

/-- One call changes the end of a registration as specified. -/
theorem step_expiry (cfg : Cfg) {s : State} {st : AccId → Standing} (h : Inv s st) (op : Op) (x : AccId) :
    ((step cfg s op).1.devices.get x).map Node.expire =
      (expiryStep cfg x (st x, (s.devices.get x).map Node.expire) (s, op, (step cfg s op).2)).2 := by
  rcases step_cases cfg s op with ⟨r, hb, hs⟩ | ⟨e, hb, hs⟩
  swap
  · rw [hs]; rfl
  rw [hs]
  have hout : (expiryStep cfg x (st x, (s.devices.get x).map Node.expire) (s, op, r.2)).2 =
      if op.caller = some x then expiryAfter cfg s.block (serving (st x)) ((s.devices.get x).map Node.expire) op
      else (s.devices.get x).map Node.expire := by
    have := out_of_body hb
    unfold expiryStep
    cases hr : r.2 with
    | failed e => exact absurd hr (this e)
    | done => rfl
    | npow e => rfl
  rw [hout]
  clear hout hs
  cases op with
  | register a c =>
    simp only [body] at hb
    obtain ⟨s', hr, hs'⟩ := map_ok hb
    rw [← hs']
    show (s'.devices.get x).map _ = _
    simp only [Op.caller, Option.some.injEq, expiryAfter]
    unfold register at hr
    split at hr
    · cases hr
    split at hr
    · split at hr
      · cases hr
      · cases hr
        simp only [FMap.get_insert, eq_comm (a := x)]
        split <;> rfl
    · rename_i node hd
      simp only at hr
      split at hr
      · cases hr
        simp only [(tryRemove_devices hd).1, FMap.get_insert, eq_comm (a := x)]
        split <;> rfl
      · cases hr
        simp only [FMap.get_insert, eq_comm (a := x)]
        split <;> rfl
  | unregister a =>
    simp only [body] at hb
    obtain ⟨s', hr, hs'⟩ := map_ok hb
    rw [← hs']
    show (s'.devices.get x).map _ = _
    simp only [Op.caller, Option.some.injEq, expiryAfter]
    unfold unregister at hr
    split at hr
    · cases hr
    rename_i hc
    simp only [Bool.not_eq_true, Bool.not_eq_false', FMap.contains_iff] at hc
    obtain ⟨node, hd⟩ := hc
    cases hr
    simp only [(tryRemove_devices hd).1, FMap.get_erase, FMap.get_insert, eq_comm (a := x)]
    split <;> rfl
  | registerServer a n =>
    simp only [body] at hb
    obtain ⟨s', hr, hs'⟩ := map_ok hb
    rw [← hs']
    show (s'.devices.get x).map _ = _
    simp only [Op.caller, Option.some.injEq, expiryAfter]
    unfold registerServer at hr
    split at hr
    · cases hr
    rename_i hc
    simp only [Bool.not_eq_true, Bool.not_eq_false', FMap.contains_iff] at hc
    obtain ⟨node, hd⟩ := hc
    split at hr
    · cases hr
    cases hr
    obtain ⟨b, hsa⟩ := h.get_some hd
    rw [tryAdd_devices h hd hsa]
    by_cases hx : a = x
    · subst hx
      rw [if_pos rfl, hsa]
      cases b
      · simp [serving]
      · simp [serving]
    · rw [if_neg hx]
      split
      · rfl
      · rw [FMap.get_insert_ne _ _ (Ne.symm hx)]
  | updateServer a n =>
    simp only [body] at hb
    obtain ⟨s', hr, hs'⟩ := map_ok hb
    rw [← hs']
    show (s'.devices.get x).map _ = _
    simp only [Op.caller, Option.some.injEq, expiryAfter]
    unfold updateServer at hr
    split at hr
    · cases hr
    rename_i node hd
    split at hr
    · cases hr
    cases hr
    simp only [FMap.get_insert, eq_comm (a := x)]
    split <;> rfl
  | unregisterServer a =>
    simp only [body] at hb
    obtain ⟨s', hr, hs'⟩ := map_ok hb
    rw [← hs']
    show (s'.devices.get x).map _ = _
    simp only [Op.caller, Option.some.injEq, expiryAfter]
    unfold unregisterServer at hr
    split at hr
    · cases hr
    rename_i hc
    simp only [Bool.not_eq_true, Bool.not_eq_false', FMap.contains_iff] at hc
    obtain ⟨node, hd⟩ := hc
    cases hr
    simp only [(tryRemove_devices hd).1, FMap.get_insert, eq_comm (a := x)]
    split <;> rfl
  | heartbeat a =>
    simp only [body] at hb
    cases hb
    simp only [expiryAfter, ite_self]
    unfold heartbeat
    simp only
    split <;> rfl
  | reportProof a n sig p =>
    simp only [body] at hb
    obtain ⟨s', hr, hs'⟩ := map_ok hb
    rw [← hs']
    simp only [expiryAfter, ite_self]
    unfold reportProof at hr
    split at hr
    · cases hr
    · cases hr; rfl
  | rewardMapping a n sig e =>
    simp only [body] at hb
    obtain ⟨s', hr, hs'⟩ := map_ok hb
    rw [← hs']
    simp only [expiryAfter, ite_self]
    unfold rewardMapping at hr
    split at hr
    · cases hr
    split at hr
    · cases hr
    split at hr
    · split at hr <;> cases hr <;> rfl
    · cases hr; rfl
  | npowReward a =>
    simp only [body] at hb
    obtain ⟨s', hr, hs'⟩ := map_ok hb
    rw [← hs']
    simp only [expiryAfter, ite_self]
  | external n b v w =>
    simp only [body] at hb
    cases hb
    simp [Op.caller]

theorem run_expiry (cfg : Cfg) (x : AccId) (ops : List Op) : ∀ {s : State} {st : AccId → Standing}, Inv s st →
    ((run cfg s ops).1.devices.get x).map Node.expire =
      ((run cfg s ops).2.foldl (expiryStep cfg x) (st x, (s.devices.get x).map Node.expire)).2 := by
  induction ops with
  | nil => intro s st _; rfl
  | cons op ops ih =>
    intro s st h
    have h1 := step_inv cfg h op
    have h2 := ih h1
    simp only [run, List.foldl_cons]
    have h3 := step_expiry cfg h op x
    rw [h3] at h2
    exact h2

/-- **C83**, part: after any history the recorded end of a registration is the one determined by the
calls of the device: the duration counts from the block of the call that asked for it. Missing: an
expired server leaves the directory; a second registration has an effect (see the witnesses). -/
theorem C83_expiry_partial (cfg : Cfg) (bank : Bank) (rewards : List (AccId × Nat)) (ops : List Op) (a : AccId) :
    let r := run cfg (genesis bank rewards) ops
    (r.1.devices.get a).map Node.expire = expiry cfg a r.2 := by
  intro r
  have h := run_expiry cfg a ops (genesis_inv bank rewards)
  obtain ⟨e, d, hg⟩ := genesis_frame bank rewards
  have h0 : ((genesis bank rewards).devices.get a).map Node.expire = none := by rw [hg]; rfl
  rw [h0] at h
  exact h

/-- **C83**: a call asking for a duration is accepted exactly if the device is registered and the
duration is within the limit. -/
theorem C83_duration_limit (cfg : Cfg) (s : State) (op : Op) (a : AccId) (n : Nat)
    (h : asksFor op = some (a, n)) :
    (step cfg s op).2 = .done ↔ (s.devices.get a).isSome = true ∧ n ≤ cfg.maxDuration := by
  have hc : s.devices.contains a = (s.devices.get a).isSome := by
    cases hd : s.devices.get a with
    | none =>
      cases hcc : s.devices.contains a with
      | false => rfl
      | true => obtain ⟨v, hv⟩ := (FMap.contains_iff _ _).1 hcc; rw [hd] at hv; cases hv
    | some v => exact (FMap.contains_iff _ _).2 ⟨v, hd⟩
  cases op <;> simp only [asksFor, Option.some.injEq, Prod.mk.injEq, reduceCtorEq] at h
  · rename_i a' eras
    obtain ⟨rfl, rfl⟩ := h
    simp only [step, body, registerServer, hc]
    cases hd : s.devices.get _ with
    | none => simp [Except.map]
    | some node =>
      simp only [Option.isSome_some, Bool.not_true, Bool.false_eq_true, if_false]
      by_cases hl : cfg.maxDuration < eras
      · simp [hl, Except.map]
      · simp [hl, Except.map]; omega
  · rename_i a' eras
    obtain ⟨rfl, rfl⟩ := h
    simp only [step, body, updateServer]
    cases hd : s.devices.get _ with
    | none => simp [Except.map]
    | some node =>
      simp only [Option.isSome_some]
      by_cases hl : cfg.maxDuration < eras
      · simp [hl, Except.map]
      · simp [hl, Except.map]; omega

theorem step_block (cfg : Cfg) (s : State) (op : Op) : s.block ≤ (step cfg s op).1.block := by
  by_cases hop : ∃ n b v w, op = .external n b v w
  · obtain ⟨n, b, v, w, rfl⟩ := hop
    exact Nat.le_add_right _ _
  · rcases step_cases cfg s op with ⟨r, hb, hs⟩ | ⟨e, hb, hs⟩
    swap
    · rw [hs]; exact Nat.le_refl _
    rw [hs]
    refine Nat.le_of_eq ?_
    cases op <;> simp only [body] at hb
    case heartbeat => cases hb; unfold heartbeat; simp only; split <;> rfl
    case external n b v w => exact absurd ⟨n, b, v, w, rfl⟩ hop
    all_goals
      obtain ⟨s', hr, hs'⟩ := map_ok hb
      rw [← hs']
    case register =>
      unfold register at hr
      split at hr
      · cases hr
      split at hr
      · split at hr <;> cases hr; rfl
      · rename_i node hd
        simp only at hr
        split at hr
        · cases hr; exact (tryRemove_devices hd).2.symm
        · cases hr; rfl
    case unregister =>
      unfold unregister at hr
      split at hr
      · cases hr
      · cases hr
        obtain ⟨_, _, _, hf⟩ := tryRemove_frame s (by assumption)
        simp only [hf]
    case registerServer =>
      unfold registerServer at hr
      split at hr
      · cases hr
      split at hr
      · cases hr
      · cases hr
        rename_i a n _ _
        obtain ⟨_, _, _, hf⟩ := tryAdd_frame s a (n * cfg.blocksPerEra)
        rw [hf]
    case updateServer =>
      unfold updateServer at hr
      split at hr
      · cases hr
      split at hr <;> cases hr; rfl
    case unregisterServer =>
      unfold unregisterServer at hr
      split at hr
      · cases hr
      · cases hr
        rename_i a _
        obtain ⟨_, _, _, hf⟩ := tryRemove_frame s a
        rw [hf]
    case reportProof => unfold reportProof at hr; split at hr <;> cases hr; rfl
    case rewardMapping =>
      unfold rewardMapping at hr
      split at hr
      · cases hr
      split at hr
      · cases hr
      split at hr
      · split at hr <;> cases hr <;> rfl
      · cases hr; rfl

/-- **C83**: no registration reaches further than the maximal duration from now. -/
theorem C83_bounded (cfg : Cfg) (bank : Bank) (rewards : List (AccId × Nat)) (ops : List Op) (a : AccId)
    (node : Node) (h : (run cfg (genesis bank rewards) ops).1.devices.get a = some node) :
    node.expire ≤ (run cfg (genesis bank rewards) ops).1.block + cfg.maxDuration * cfg.blocksPerEra := by
  have key : ∀ (ops : List Op) (s : State) (st : AccId → Standing), Inv s st →
      (∀ n, s.devices.get a = some n → n.expire ≤ s.block + cfg.maxDuration * cfg.blocksPerEra) →
      ∀ n, (run cfg s ops).1.devices.get a = some n →
        n.expire ≤ (run cfg s ops).1.block + cfg.maxDuration * cfg.blocksPerEra := by
    intro ops
    induction ops with
    | nil => intro s st _ h; exact h
    | cons op ops ih =>
      intro s st hi hb
      refine ih _ _ (step_inv cfg hi op) ?_
      intro n hn
      have h3 := step_expiry cfg hi op a
      have hblk := step_block cfg s op
      rw [hn] at h3
      simp only [Option.map_some] at h3
      have hold : some n.expire = (s.devices.get a).map Node.expire →
          n.expire ≤ (step cfg s op).1.block + cfg.maxDuration * cfg.blocksPerEra := by
        intro he
        cases hg : s.devices.get a with
        | none => rw [hg] at he; cases he
        | some m =>
          rw [hg] at he
          simp only [Option.map_some, Option.some.injEq] at he
          have := hb m hg
          omega
      unfold expiryStep at h3
      cases ho : (step cfg s op).2 with
      | failed e => rw [ho] at h3; exact hold h3
      | npow e =>
        rw [ho] at h3
        simp only at h3
        split at h3
        rotate_left
        · exact hold h3
        cases op <;> simp only [expiryAfter] at h3
        case npowReward => exact hold h3
        case heartbeat => exact hold h3
        case reportProof => exact hold h3
        case rewardMapping => exact hold h3
        case external => exact hold h3
        all_goals
          exfalso
          simp only [step, body] at ho
          split at ho
          · rename_i heq; obtain ⟨_, _, hx⟩ := map_ok heq; rw [← hx] at ho; cases ho
          · cases ho
      | done =>
        rw [ho] at h3
        simp only at h3
        split at h3
        rotate_left
        · exact hold h3
        have hlim : ∀ b k, asksFor op = some (b, k) → k * cfg.blocksPerEra ≤ cfg.maxDuration * cfg.blocksPerEra :=
          fun b k hk => Nat.mul_le_mul_right _ ((C83_duration_limit cfg s op b k hk).1 ho).2
        cases op <;> simp only [expiryAfter] at h3
        case npowReward => exact hold h3
        case heartbeat => exact hold h3
        case reportProof => exact hold h3
        case rewardMapping => exact hold h3
        case external => exact hold h3
        case register => have h4 := Option.some.inj h3; omega
        case unregister => cases h3
        case unregisterServer => have h4 := Option.some.inj h3; omega
        case updateServer b k _ => have := hlim b k rfl; have h4 := Option.some.inj h3; omega
        case registerServer b k _ =>
          have := hlim b k rfl
          split at h3
          · exact hold h3
          · have h4 := Option.some.inj h3; omega
  refine key ops _ _ (genesis_inv bank rewards) ?_ node h
  intro n hn
  obtain ⟨e, d, hg⟩ := genesis_frame bank rewards
  rw [hg] at hn
  cases hn

/-- A duration of 3 eras from block 0, then 5 from block 20; a longer one is refused. -/
example :
    let w := Op.external 20 exBank (fun _ _ _ => false) (fun _ _ _ => false)
    let r := run exCfg (genesis exBank []) [.register 1 us, .registerServer 1 3, w, .updateServer 1 5]
    expiry exCfg 1 r.2 = some 70 ∧ (r.1.devices.get 1).map Node.expire = some 70 ∧
    (step exCfg r.1 (.updateServer 1 8)).2 = .failed .durationOverflow ∧
    (step exCfg r.1 (.registerServer 2 1)).2 = .failed .deviceNotRegister := by
  decide +kernel

/-- C83, against the full statement: a second registration of a listed server succeeds without
prolonging anything. -/
theorem C83_second_registration_ignored :
    ∃ ops : List Op, ∃ n,
      let r := run exCfg (genesis exBank []) ops
      (step exCfg r.1 (.registerServer 1 n)).2 = .done ∧ 0 < n ∧
      ((step exCfg r.1 (.registerServer 1 n)).1.devices.get 1).map Node.expire =
        (r.1.devices.get 1).map Node.expire ∧
      (r.1.devices.get 1).map Node.expire ≠ some (r.1.block + n * exCfg.blocksPerEra) := by
  refine ⟨[.register 1 us, .registerServer 1 1, .external 1000 exBank (fun _ _ _ => false)
    (fun _ _ _ => false)], 5, ?_⟩
  decide +kernel

/-- C83, against the full statement: registering the device again in the same country ends the
server registration at once, yet the server stays in the directory. -/
theorem C83_reregistered_server_listed :
    ∃ ops : List Op,
      let s := (run exCfg (genesis exBank []) ops).1
      s.devices.get 1 = some ⟨us, s.block⟩ ∧ 1 ∈ countryList s us := by
  refine ⟨[.register 1 us, .registerServer 1 5, .register 1 us], ?_⟩
  decide +kernel

end Verif.DeeperNode
