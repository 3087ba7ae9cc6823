import Verif.DeeperNodeExpiry

/-
Property C99 of the device registry: when the calls succeed, and whose records they change.
-/

namespace Verif.DeeperNode

/-! ### Specification -/

/-- The account can put down a deposit: it has the free balance, what is left covers its locks, and
what is left is an existing account. -/
def canReserve (b : Bank) (a : AccId) (d : Balance) : Prop :=
  d = 0 ∨ (d ≤ b.free a ∧ b.frozen a ≤ b.free a - d ∧ (b.ed ≤ b.free a - d ∨ b.free a < b.ed))

/-- The account has a device. -/
def registered (s : State) (a : AccId) : Prop := ∃ n, s.devices.get a = some n

/-- When each call succeeds. -/
def accepted (cfg : Cfg) (s : State) : Op → Prop
  | .register a c => c ∈ regionTable.map Prod.fst ∧ (registered s a ∨ canReserve s.bank a cfg.minLock)
  | .unregister a => registered s a
  | .registerServer a eras => registered s a ∧ eras ≤ cfg.maxDuration
  | .updateServer a eras => registered s a ∧ eras ≤ cfg.maxDuration
  | .unregisterServer a => registered s a
  | .reportProof a nonce sig _ => s.verifyAny nonce sig a = true
  | .rewardMapping a nonce sig eth => s.verifyNew nonce sig a = true ∧ s.evmToDeeper.get eth = none
  | .npowReward a => ∃ e, s.deeperToEvm.get a = some e
  | _ => True

/-! ### Proofs -/

theorem reserve_iff (b : Bank) (a : AccId) (d : Balance) :
    (∃ b', b.reserve a d = .ok b') ↔ canReserve b a d := by
  unfold Bank.reserve canReserve
  by_cases h0 : d = 0
  · simp [h0]
  by_cases h1 : b.free a < d
  · simp [h0, h1, Nat.not_le.2 h1]
  by_cases h2 : b.free a - d < b.frozen a
  · rw [if_neg h0, if_neg h1, if_pos h2]
    exact ⟨fun ⟨_, h⟩ => (by cases h), fun h => (by omega)⟩
  by_cases h3 : b.free a - d < b.ed ∧ b.ed ≤ b.free a
  · rw [if_neg h0, if_neg h1, if_neg h2, if_pos h3]
    exact ⟨fun ⟨_, h⟩ => (by cases h), fun h => (by omega)⟩
  · rw [if_neg h0, if_neg h1, if_neg h2, if_neg h3]
    exact ⟨fun _ => by omega, fun _ => ⟨_, rfl⟩⟩

theorem contains_registered (s : State) (a : AccId) : s.devices.contains a = true ↔ registered s a := by
  have := FMap.contains_iff s.devices a
  unfold registered
  cases hg : s.devices.get a with
  | none => simp_all
  | some n => simp_all

theorem lget_mem {κ α : Type} [DecidableEq κ] (l : List (κ × α)) (k : κ) :
    (FMap.lget l k).isSome = true ↔ k ∈ l.map Prod.fst := by
  induction l with
  | nil => simp [FMap.lget]
  | cons x xs ih =>
    obtain ⟨y, v⟩ := x
    unfold FMap.lget
    by_cases h : y = k
    · subst h; simp
    · simp only [List.map_cons, List.mem_cons]
      rw [← ih]
      simp [h, Ne.symm h]

theorem map_done {α : Type} (r : Except Err α) (f : α → State × Out) :
    (∃ x, r.map f = .ok x) ↔ ∃ y, r = .ok y := by
  cases r with
  | ok y => exact ⟨fun _ => ⟨y, rfl⟩, fun _ => ⟨f y, rfl⟩⟩
  | error e => exact ⟨fun ⟨_, h⟩ => (by cases h), fun ⟨_, h⟩ => (by cases h)⟩

theorem body_iff (cfg : Cfg) (s : State) (op : Op) :
    (∃ r, body cfg s op = .ok r) ↔ accepted cfg s op := by
  cases op with
  | register a c =>
    refine (map_done _ _).trans ?_
    show _ ↔ c ∈ regionTable.map Prod.fst ∧ _
    rw [← lget_mem, ← reserve_iff]
    unfold register isCode
    cases hc : (FMap.lget regionTable c).isSome with
    | false => simp
    | true =>
      simp only [Bool.not_true, Bool.false_eq_true, if_false]
      unfold registered
      cases hd : s.devices.get a with
      | none => cases s.bank.reserve a cfg.minLock <;> simp
      | some n => simp
  | unregister a =>
    refine (map_done _ _).trans ?_
    show _ ↔ registered s a
    rw [← contains_registered]
    unfold unregister
    cases s.devices.contains a <;> simp
  | registerServer a n =>
    refine (map_done _ _).trans ?_
    show _ ↔ registered s a ∧ n ≤ cfg.maxDuration
    rw [← contains_registered]
    unfold registerServer
    cases s.devices.contains a with
    | false => simp
    | true =>
      by_cases h : cfg.maxDuration < n
      · simp [h]
      · simp [h]; omega
  | updateServer a n =>
    refine (map_done _ _).trans ?_
    show _ ↔ registered s a ∧ n ≤ cfg.maxDuration
    unfold updateServer registered
    cases s.devices.get a with
    | none => simp
    | some d =>
      by_cases h : cfg.maxDuration < n
      · simp [h]
      · simp [h]; omega
  | unregisterServer a =>
    refine (map_done _ _).trans ?_
    show _ ↔ registered s a
    rw [← contains_registered]
    unfold unregisterServer
    cases s.devices.contains a <;> simp
  | heartbeat a => exact ⟨fun _ => trivial, fun _ => ⟨_, rfl⟩⟩
  | reportProof a n sig p =>
    refine (map_done _ _).trans ?_
    show _ ↔ s.verifyAny n sig a = true
    unfold reportProof
    cases s.verifyAny n sig a <;> simp
  | rewardMapping a n sig e =>
    refine (map_done _ _).trans ?_
    show _ ↔ s.verifyNew n sig a = true ∧ s.evmToDeeper.get e = none
    unfold rewardMapping
    cases s.verifyNew n sig a with
    | false => simp
    | true =>
      have hc := FMap.contains_iff s.evmToDeeper e
      cases hg : s.evmToDeeper.get e with
      | some x =>
        have : s.evmToDeeper.contains e = true := by simp_all
        simp [this]
      | none =>
        have : s.evmToDeeper.contains e = false := by simp_all
        simp only [this, Bool.not_true, Bool.false_eq_true, if_false, and_self, iff_true]
        split
        · split <;> exact ⟨_, rfl⟩
        · exact ⟨_, rfl⟩
  | npowReward a =>
    refine (map_done _ _).trans ?_
    show _ ↔ ∃ e, s.deeperToEvm.get a = some e
    unfold npowReward
    cases s.deeperToEvm.get a <;> simp
  | external n b v w => exact ⟨fun _ => trivial, fun _ => ⟨_, rfl⟩⟩

/-- C99, acceptance. A call succeeds exactly under the listed conditions; otherwise nothing changes. -/
theorem C99_accepted (cfg : Cfg) (s : State) (op : Op) :
    ((∀ e, (step cfg s op).2 ≠ .failed e) ↔ accepted cfg s op) ∧
    (∀ e, (step cfg s op).2 = .failed e → (step cfg s op).1 = s) := by
  rw [← body_iff]
  unfold step
  cases hb : body cfg s op with
  | ok r => exact ⟨⟨fun _ => ⟨r, rfl⟩, fun _ => out_of_body hb⟩, fun e he => absurd he (out_of_body hb e)⟩
  | error e =>
    exact ⟨⟨fun h => absurd rfl (h e), fun ⟨_, h⟩ => (by cases h)⟩, fun _ _ => rfl⟩

theorem tryAdd_ne (s : State) (a : AccId) (n : Nat) {b : AccId} (hb : b ≠ a) :
    (tryAdd s a n).devices.get b = s.devices.get b := by
  have h1 : ∀ (s : State) l a c, (countryInsert s l a c).1.devices = s.devices := by
    intro s l a c; unfold countryInsert; split <;> rfl
  have h2 : ∀ (s : State) l a c, (regionInsert s l a c).1.devices = s.devices := by
    intro s l a c; unfold regionInsert; split <;> rfl
  have h3 : ∀ (s : State) l a c, (countryRemove s l a c).devices = s.devices := by
    intro s l a c; unfold countryRemove; split <;> rfl
  have h4 : ∀ (s : State) l a c, (regionRemove s l a c).devices = s.devices := by
    intro s l a c; unfold regionRemove; split <;> rfl
  unfold tryAdd
  simp only
  split
  · rfl
  split
  · rw [h3, h1]
  split
  · rw [h4, h3, h2, h1]
  · simp only
    rw [FMap.get_insert_ne _ _ hb, h2, h2, h1]

theorem tryRemove_ne (s : State) (a : AccId) {b : AccId} (hb : b ≠ a) :
    (tryRemove s a).devices.get b = s.devices.get b := by
  cases hd : s.devices.get a with
  | none => unfold tryRemove; rw [hd]
  | some n => rw [(tryRemove_devices hd).1, FMap.get_insert_ne _ _ hb]

theorem reserve_others {b b' : Bank} {a : AccId} {v : Balance} (h : b.reserve a v = .ok b') (x : AccId)
    (hx : x ≠ a) : b'.acct x = b.acct x := by
  unfold Bank.reserve at h
  split at h
  · cases h; rfl
  split at h
  · cases h
  split at h
  · cases h
  split at h
  · cases h
  · cases h; exact Bank.acct_put_ne _ _ hx

theorem unreserve_others (b : Bank) (a : AccId) (v : Balance) (x : AccId) (hx : x ≠ a) :
    (b.unreserve a v).acct x = b.acct x := by
  unfold Bank.unreserve
  split
  · rfl
  · exact Bank.acct_put_ne _ _ hx

/-- All records of an account. -/
structure Same (s s' : State) (b : AccId) : Prop where
  device : s'.devices.get b = s.devices.get b
  online : s'.imOnline.get b = s.imOnline.get b
  onboard : s'.onboard.get b = s.onboard.get b
  proof : s'.proofs.get b = s.proofs.get b
  address : s'.deeperToEvm.get b = s.deeperToEvm.get b
  balance : s'.bank.acct b = s.bank.acct b

theorem tryRemove_same (s : State) (a : AccId) {b : AccId} (hb : b ≠ a) : Same s (tryRemove s a) b := by
  have h := tryRemove_ne s a hb
  obtain ⟨bc, br, dv, e⟩ := tryRemove_frame s a
  rw [e] at h ⊢
  exact ⟨h, rfl, rfl, rfl, rfl, rfl⟩

theorem body_others {cfg : Cfg} {s : State} {op : Op} {r : State × Out} {a b : AccId}
    (h : body cfg s op = .ok r) (hc : op.caller = some a) (hb : b ≠ a) : Same s r.1 b := by
  cases op with
  | register x c =>
    cases hc
    obtain ⟨y, hy, rfl⟩ := map_ok h
    unfold register at hy
    split at hy
    · cases hy
    split at hy
    · split at hy
      · cases hy
      · rename_i hr
        cases hy
        exact ⟨FMap.get_insert_ne _ _ hb, rfl, rfl, rfl, rfl, reserve_others hr b hb⟩
    · rename_i node hd
      cases hy
      by_cases hn : node.country ≠ c
      · simp only [if_pos hn]
        have hs := tryRemove_same s a hb
        exact ⟨(FMap.get_insert_ne _ _ hb).trans hs.device, hs.online, hs.onboard, hs.proof, hs.address, hs.balance⟩
      · simp only [if_neg hn]
        exact ⟨FMap.get_insert_ne _ _ hb, rfl, rfl, rfl, rfl, rfl⟩
  | unregister x =>
    cases hc
    obtain ⟨y, hy, rfl⟩ := map_ok h
    unfold unregister at hy
    split at hy
    · cases hy
    · cases hy
      have hs := tryRemove_same s a hb
      exact ⟨(FMap.get_erase_ne _ hb).trans hs.device, hs.online, hs.onboard, hs.proof, hs.address,
        (unreserve_others _ _ _ _ hb).trans hs.balance⟩
  | registerServer x n =>
    cases hc
    obtain ⟨y, hy, rfl⟩ := map_ok h
    unfold registerServer at hy
    split at hy
    · cases hy
    split at hy
    · cases hy
    · cases hy
      have h1 := tryAdd_ne s a (n * cfg.blocksPerEra) hb
      obtain ⟨bc, br, dv, e⟩ := tryAdd_frame s a (n * cfg.blocksPerEra)
      simp only
      rw [e] at h1 ⊢
      exact ⟨h1, rfl, rfl, rfl, rfl, rfl⟩
  | updateServer x n =>
    cases hc
    obtain ⟨y, hy, rfl⟩ := map_ok h
    unfold updateServer at hy
    split at hy
    · cases hy
    split at hy
    · cases hy
    · cases hy
      exact ⟨FMap.get_insert_ne _ _ hb, rfl, rfl, rfl, rfl, rfl⟩
  | unregisterServer x =>
    cases hc
    obtain ⟨y, hy, rfl⟩ := map_ok h
    unfold unregisterServer at hy
    split at hy
    · cases hy
    · cases hy; exact tryRemove_same s a hb
  | heartbeat x =>
    cases hc
    cases h
    simp only [heartbeat]
    split
    · exact ⟨rfl, FMap.get_insert_ne _ _ hb, rfl, rfl, rfl, rfl⟩
    · exact ⟨rfl, FMap.get_insert_ne _ _ hb, FMap.get_insert_ne _ _ hb, rfl, rfl, rfl⟩
  | reportProof x n sig p =>
    cases hc
    obtain ⟨y, hy, rfl⟩ := map_ok h
    unfold reportProof at hy
    split at hy
    · cases hy
    · cases hy; exact ⟨rfl, rfl, rfl, FMap.get_insert_ne _ _ hb, rfl, rfl⟩
  | rewardMapping x n sig e =>
    cases hc
    obtain ⟨y, hy, rfl⟩ := map_ok h
    unfold rewardMapping at hy
    split at hy
    · cases hy
    split at hy
    · cases hy
    split at hy
    · split at hy
      · cases hy; exact ⟨rfl, rfl, rfl, rfl, FMap.get_insert_ne _ _ hb, rfl⟩
      · cases hy; exact ⟨rfl, rfl, rfl, rfl, rfl, rfl⟩
    · cases hy; exact ⟨rfl, rfl, rfl, rfl, FMap.get_insert_ne _ _ hb, rfl⟩
  | npowReward x =>
    obtain ⟨y, hy, rfl⟩ := map_ok h
    exact ⟨rfl, rfl, rfl, rfl, rfl, rfl⟩
  | external n b v w => cases hc

/-- C99, only the caller's records. A call of one account changes no record of another: device and its
country and expiry, last heartbeat, onboarding, credit proof, reward address, balance. -/
theorem C99_others (cfg : Cfg) (s : State) (op : Op) (a b : AccId) (hc : op.caller = some a) (hb : b ≠ a) :
    Same s (step cfg s op).1 b := by
  unfold step
  cases h : body cfg s op with
  | ok r => exact body_others h hc hb
  | error e => exact ⟨rfl, rfl, rfl, rfl, rfl, rfl⟩

theorem body_proofs {cfg : Cfg} {s : State} {op : Op} {r : State × Out} (h : body cfg s op = .ok r)
    (hop : ∀ a n sig p, op ≠ .reportProof a n sig p) : r.1.proofs = s.proofs := by
  cases op with
  | register x c =>
    obtain ⟨y, hy, rfl⟩ := map_ok h
    unfold register at hy
    split at hy
    · cases hy
    split at hy
    · split at hy
      · cases hy
      · cases hy; rfl
    · rename_i node hd
      cases hy
      obtain ⟨bc, br, dv, e⟩ := tryRemove_frame s x
      by_cases hn : node.country ≠ c
      · simp only [if_pos hn]; rw [e]
      · simp only [if_neg hn]
  | unregister x =>
    obtain ⟨y, hy, rfl⟩ := map_ok h
    obtain ⟨bc, br, dv, e⟩ := tryRemove_frame s x
    unfold unregister at hy
    split at hy
    · cases hy
    · cases hy; simp only; rw [e]
  | registerServer x n =>
    obtain ⟨y, hy, rfl⟩ := map_ok h
    obtain ⟨bc, br, dv, e⟩ := tryAdd_frame s x (n * cfg.blocksPerEra)
    unfold registerServer at hy
    split at hy
    · cases hy
    split at hy
    · cases hy
    · cases hy; simp only; rw [e]
  | updateServer x n =>
    obtain ⟨y, hy, rfl⟩ := map_ok h
    unfold updateServer at hy
    split at hy
    · cases hy
    split at hy
    · cases hy
    · cases hy; rfl
  | unregisterServer x =>
    obtain ⟨y, hy, rfl⟩ := map_ok h
    obtain ⟨bc, br, dv, e⟩ := tryRemove_frame s x
    unfold unregisterServer at hy
    split at hy
    · cases hy
    · cases hy; simp only; rw [e]
  | heartbeat x =>
    cases h
    simp only [heartbeat]
    split <;> rfl
  | reportProof x n sig p => exact absurd rfl (hop x n sig p)
  | rewardMapping x n sig e =>
    obtain ⟨y, hy, rfl⟩ := map_ok h
    unfold rewardMapping at hy
    split at hy
    · cases hy
    split at hy
    · cases hy
    split at hy
    · split at hy
      · cases hy; rfl
      · cases hy; rfl
    · cases hy; rfl
  | npowReward x =>
    obtain ⟨y, hy, rfl⟩ := map_ok h
    rfl
  | external n b v w => cases h; rfl

/-- C99, effects. After any history the country of a device is the one of the last accepted
registration since the device was last removed (`standing`, the specification of C22); a credit proof
is what the last accepted report of the account said; the query for the reward address announces the
address mapped to the account (C25) and changes nothing. -/
theorem C99_effects (cfg : Cfg) (bank : Bank) (rewards : List (AccId × Nat)) (ops : List Op) :
    let s := (run cfg (genesis bank rewards) ops).1
    let tr := (run cfg (genesis bank rewards) ops).2
    (∀ a, (s.devices.get a).map Node.country = (standing a tr).map Prod.fst) ∧
    (∀ a n sig p, (step cfg s (.reportProof a n sig p)).2 = .done →
      (step cfg s (.reportProof a n sig p)).1.proofs.get a = some p) ∧
    (∀ a e, (step cfg s (.npowReward a)).2 = .npow e ↔ s.deeperToEvm.get a = some e) ∧
    (∀ a, (step cfg s (.npowReward a)).1 = s) ∧
    (∀ op a, (∀ n sig p, op ≠ .reportProof a n sig p) → (step cfg s op).1.proofs.get a = s.proofs.get a) := by
  intro s tr
  have hi := run_inv cfg ops (genesis_inv bank rewards)
  refine ⟨hi.dev, ?_, ?_, ?_, ?_⟩
  · intro a n sig p h
    have hacc := ((C99_accepted cfg s (.reportProof a n sig p)).1.1 (by rw [h]; intro e he; cases he))
    have hv : s.verifyAny n sig a = true := hacc
    simp only [step, body, reportProof, hv, Bool.not_true, Bool.false_eq_true, if_false, Except.map]
    exact FMap.get_insert_self _ _ _
  · intro a e
    simp only [step, body, npowReward]
    cases s.deeperToEvm.get a with
    | none => exact ⟨fun h => (by cases h), fun h => (by cases h)⟩
    | some x =>
      exact ⟨fun h => (by cases h; rfl), fun h => (by cases h; rfl)⟩
  · intro a
    simp only [step, body, npowReward]
    cases s.deeperToEvm.get a <;> rfl
  · intro op a hop
    cases hc : op.caller with
    | none =>
      cases op with
      | external n b v w => rfl
      | _ => cases hc
    | some x =>
      by_cases hx : a = x
      · subst hx
        unfold step
        cases hb : body cfg s op with
        | error e => rfl
        | ok r =>
          show r.1.proofs.get a = _
          rw [body_proofs hb]
          intro x n sig p hp
          subst hp
          cases hc
          exact hop n sig p rfl
      · exact (C99_others cfg s op x a hc hx).proof

/-- Registering needs a known code and the deposit, which 3 does not have; serving needs a device and
at most 7 eras; proofs need a signature; another account's device stays. -/
example :
    let s := (run exCfg (genesis exBank [(1, 77)]) [.register 1 us, .external 5 exBank (fun n _ _ => n == 4) (fun _ _ _ => false)]).1
    (step exCfg s (.register 2 cn)).2 = .done ∧ (step exCfg s (.register 2 [1, 2])).2 = .failed .invalidCode ∧
    (step exCfg s (.register 3 cn)).2 = .failed (.bank .insufficientBalance) ∧
    (step exCfg s (.registerServer 1 7)).2 = .done ∧ (step exCfg s (.registerServer 1 8)).2 = .failed .durationOverflow ∧
    (step exCfg s (.registerServer 2 7)).2 = .failed .deviceNotRegister ∧
    (step exCfg s (.reportProof 2 4 [] (1, 2, 3))).1.proofs.get 2 = some (1, 2, 3) ∧
    (step exCfg s (.reportProof 2 3 [] (1, 2, 3))).2 = .failed .signatureVerifyFailed ∧
    (step exCfg s (.npowReward 1)).2 = .npow 77 ∧
    (step exCfg s (.register 2 cn)).1.devices.get 1 = some ⟨us, 0⟩ := by
  decide +kernel

end Verif.DeeperNode
