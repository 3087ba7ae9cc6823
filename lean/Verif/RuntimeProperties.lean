import Verif.Runtime
import Verif.BankExact
import Verif.StakingCreditProperties

/-
C50 Proxy types are sound, C51 Fees are split without loss, C52 Declared precompiles are exactly the executed
ones.
-/

namespace Verif.Runtime

/-! ### C50 -/

theorem governance_not_balances : ∀ p : Pallet,
    [Pallet.democracy, .council, .society, .technicalCommittee, .elections, .treasury].contains p = true →
    (!decide (p = .balances)) = true := by
  intro p; cases p <;> decide

theorem staking_not_balances : ∀ p : Pallet, decide (p = .staking) = true → (!decide (p = .balances)) = true := by
  intro p; cases p <;> decide

/-- A superset allows every call its subset allows, for every runtime call. -/
theorem C50_superset (t o : ProxyType) (h : t.isSuperset o = true) (c : Call) (hc : o.filter c = true) :
    t.filter c = true := by
  cases t <;> cases o <;> first | exact hc | rfl | (exact absurd h (by decide)) | skip
  · cases c with
    | vestedTransfer => exact absurd hc (by decide)
    | indicesTransfer => exact absurd hc (by decide)
    | plain p n => exact governance_not_balances p hc
    | _ => rfl
  · cases c with
    | vestedTransfer => exact absurd hc (by decide)
    | indicesTransfer => exact absurd hc (by decide)
    | plain p n => exact staking_not_balances p hc
    | _ => rfl

/-- The relation is a partial order. -/
theorem C50_order :
    (∀ t : ProxyType, t.isSuperset t = true) ∧
    (∀ a b c : ProxyType, a.isSuperset b = true → b.isSuperset c = true → a.isSuperset c = true) ∧
    (∀ a b : ProxyType, a.isSuperset b = true → b.isSuperset a = true → a = b) := by
  refine ⟨?_, ?_, ?_⟩
  · intro t; cases t <;> decide
  · intro a b c; cases a <;> cases b <;> cases c <;> decide
  · intro a b; cases a <;> cases b <;> decide

/-- The same for the filter that really applies to proxied calls. -/
theorem C50_superset_proxied (t o : ProxyType) (h : t.isSuperset o = true) (c : Call)
    (hc : proxyFilter o c = true) : proxyFilter t c = true := by
  have hf : o.filter c = true := by
    unfold proxyFilter at hc
    split at hc
    · split at hc
      · exact hc
      · cases hc
    · split at hc
      · exact hc
      · cases hc
    · split at hc
      · exact hc
      · cases hc
    · split at hc
      · exact hc
      · cases hc
    · exact hc
  have ht := C50_superset t o h c hf
  cases c with
  | addProxy u =>
    simp only [proxyFilter] at hc ⊢
    split at hc
    · rename_i h1
      rw [if_pos (C50_order.2.1 t o u h h1)]; exact ht
    · cases hc
  | removeProxy u =>
    simp only [proxyFilter] at hc ⊢
    split at hc
    · rename_i h1
      rw [if_pos (C50_order.2.1 t o u h h1)]; exact ht
    · cases hc
  | removeProxies =>
    simp only [proxyFilter] at hc ⊢
    split at hc
    · rename_i h1
      subst h1
      rw [if_pos (by revert h; cases t <;> decide)]; exact ht
    · cases hc
  | killPure =>
    simp only [proxyFilter] at hc ⊢
    split at hc
    · rename_i h1
      subst h1
      rw [if_pos (by revert h; cases t <;> decide)]; exact ht
    · cases hc
  | _ => exact ht

mutual
theorem executed_allowed (derive : AccId → Nat → AccId) (o : Origin) (c : Call) :
    ∀ x ∈ executed derive o c, o.allows x.2 = true := by
  intro x hx
  match c with
  | .batch l =>
    simp only [executed] at hx
    split at hx
    · rename_i h
      rcases List.mem_cons.mp hx with hx | hx
      · subst hx; exact h
      · exact executedAll_allowed derive o l x hx
    · cases hx
  | .asDerivative i c =>
    simp only [executed] at hx
    split at hx
    · rename_i h
      rcases List.mem_cons.mp hx with hx | hx
      · subst hx; exact h
      · exact executed_allowed derive { o with who := derive o.who i } c x hx
    · cases hx
  | .plain p n => simp only [executed] at hx; split at hx <;> simp_all
  | .vestedTransfer => simp only [executed] at hx; split at hx <;> simp_all
  | .indicesTransfer => simp only [executed] at hx; split at hx <;> simp_all
  | .addProxy _ => simp only [executed] at hx; split at hx <;> simp_all
  | .removeProxy _ => simp only [executed] at hx; split at hx <;> simp_all
  | .removeProxies => simp only [executed] at hx; split at hx <;> simp_all
  | .killPure => simp only [executed] at hx; split at hx <;> simp_all

theorem executedAll_allowed (derive : AccId → Nat → AccId) (o : Origin) (l : List Call) :
    ∀ x ∈ executedAll derive o l, o.allows x.2 = true := by
  intro x hx
  match l with
  | [] => simp [executedAll] at hx
  | c :: l =>
    simp only [executedAll, List.mem_append] at hx
    rcases hx with hx | hx
    · exact executed_allowed derive o c x hx
    · exact executedAll_allowed derive o l x hx
end

/-- However deep a call is wrapped in batches and derivative accounts: a proxy of a type other than `Any` runs
no call of the balances pallet, no vested transfer and no transfer of an index, gives no one a type of proxy
beyond its own, and does not remove all proxies.

Missing for the full property: calls of other pallets that move funds pass the filter, see
`C50_moves_funds`. -/
theorem C50_nontransfer_partial (derive : AccId → Nat → AccId) (real : AccId) (t : ProxyType) (c : Call)
    (ht : t ≠ .any) :
    ∀ x ∈ executed derive (proxied real t) c,
      x.2.pallet ≠ .balances ∧ x.2 ≠ .vestedTransfer ∧ x.2 ≠ .indicesTransfer ∧ x.2 ≠ .removeProxies ∧
      x.2 ≠ .killPure ∧ ∀ u, x.2 = .addProxy u → t.isSuperset u = true := by
  intro x hx
  have h := executed_allowed derive (proxied real t) c x hx
  have h1 : proxyFilter t x.2 = true := by simpa [Origin.allows, proxied] using h
  obtain ⟨a, d⟩ := x
  simp only at h1 ⊢
  refine ⟨?_, ?_, ?_, ?_, ?_, ?_⟩
  · intro hp
    cases d with
    | plain p n =>
      simp only [Call.pallet] at hp
      subst hp
      cases t <;> first | exact ht rfl | (cases h1)
    | _ => simp only [Call.pallet] at hp; cases hp
  · intro hd; subst hd
    cases t <;> first | exact ht rfl | (revert h1; decide)
  · intro hd; subst hd
    cases t <;> first | exact ht rfl | (revert h1; decide)
  · intro hd; subst hd
    cases t <;> first | exact ht rfl | (revert h1; decide)
  · intro hd; subst hd
    cases t <;> first | exact ht rfl | (revert h1; decide)
  · intro u hd; subst hd
    simp only [proxyFilter] at h1
    split at h1
    · assumption
    · cases h1

/-- Every call a proxy runs passes the filter of its type. -/
theorem C50_filtered (derive : AccId → Nat → AccId) (real : AccId) (t : ProxyType) (c : Call) :
    ∀ x ∈ executed derive (proxied real t) c, t.filter x.2 = true := by
  intro x hx
  have h := executed_allowed derive (proxied real t) c x hx
  have h1 : proxyFilter t x.2 = true := by simpa [Origin.allows, proxied] using h
  unfold proxyFilter at h1
  split at h1
  all_goals first
    | exact h1
    | (split at h1
       · exact h1
       · cases h1)

/-- A call is reached in another one: it is the call itself, or reached in a call of a batch or of a derivative account,
and neither it nor what it is wrapped in is filtered. -/
inductive Reached (derive : AccId → Nat → AccId) : Origin → Call → AccId × Call → Prop
  | here {o : Origin} {c : Call} : o.allows c = true → Reached derive o c (o.who, c)
  | batch {o : Origin} {l : List Call} {c : Call} {x : AccId × Call} : o.allows (.batch l) = true → c ∈ l → Reached derive o c x → Reached derive o (.batch l) x
  | derived {o : Origin} {i : Nat} {c : Call} {x : AccId × Call} : o.allows (.asDerivative i c) = true →
      Reached derive { o with who := derive o.who i } c x → Reached derive o (.asDerivative i c) x

theorem executedAll_mem (derive : AccId → Nat → AccId) (o : Origin) (x : AccId × Call) : ∀ l : List Call, x ∈ executedAll derive o l ↔ ∃ c ∈ l, x ∈ executed derive o c := by
  intro l
  induction l with
  | nil => simp [executedAll]
  | cons c l ih => simp [executedAll, ih]

theorem reached_executed (derive : AccId → Nat → AccId) {o : Origin} {c : Call} {x : AccId × Call} (h : Reached derive o c x) : x ∈ executed derive o c := by
  induction h with
  | @here o c h =>
    cases c with
    | batch l => simp [executed, h]
    | asDerivative i c => simp [executed, h]
    | _ => simp [executed, h]
  | batch h hc _ ih =>
    simp only [executed, h, if_true]
    exact List.mem_cons_of_mem _ ((executedAll_mem derive _ _ _).2 ⟨_, hc, ih⟩)
  | derived h _ ih =>
    simp only [executed, h, if_true]
    exact List.mem_cons_of_mem _ ih

mutual
theorem executed_reached (derive : AccId → Nat → AccId) (o : Origin) (c : Call) (x : AccId × Call) (hx : x ∈ executed derive o c) : Reached derive o c x := by
  match c with
  | .batch l =>
    simp only [executed] at hx
    split at hx
    · rename_i h
      rcases List.mem_cons.mp hx with hx | hx
      · subst hx; exact .here h
      · obtain ⟨c, hc, hr⟩ := executedAll_reached derive o l x hx
        exact .batch h hc hr
    · cases hx
  | .asDerivative i c =>
    simp only [executed] at hx
    split at hx
    · rename_i h
      rcases List.mem_cons.mp hx with hx | hx
      · subst hx; exact .here h
      · exact .derived h (executed_reached derive { o with who := derive o.who i } c x hx)
    · cases hx
  | .plain p n => simp only [executed] at hx; split at hx <;> simp at hx; subst hx; exact .here (by assumption)
  | .vestedTransfer => simp only [executed] at hx; split at hx <;> simp at hx; subst hx; exact .here (by assumption)
  | .indicesTransfer => simp only [executed] at hx; split at hx <;> simp at hx; subst hx; exact .here (by assumption)
  | .addProxy _ => simp only [executed] at hx; split at hx <;> simp at hx; subst hx; exact .here (by assumption)
  | .removeProxy _ => simp only [executed] at hx; split at hx <;> simp at hx; subst hx; exact .here (by assumption)
  | .removeProxies => simp only [executed] at hx; split at hx <;> simp at hx; subst hx; exact .here (by assumption)
  | .killPure => simp only [executed] at hx; split at hx <;> simp at hx; subst hx; exact .here (by assumption)

theorem executedAll_reached (derive : AccId → Nat → AccId) (o : Origin) (l : List Call) (x : AccId × Call) (hx : x ∈ executedAll derive o l) : ∃ c ∈ l, Reached derive o c x := by
  match l with
  | [] => simp [executedAll] at hx
  | c :: l =>
    simp only [executedAll, List.mem_append] at hx
    rcases hx with hx | hx
    · exact ⟨c, List.mem_cons_self .., executed_reached derive o c x hx⟩
    · obtain ⟨d, hd, hr⟩ := executedAll_reached derive o l x hx
      exact ⟨d, List.mem_cons_of_mem _ hd, hr⟩
end

/-- Exactly the calls run which pass the filter of the proxy together with everything they are wrapped in. -/
theorem C50_runs (derive : AccId → Nat → AccId) (real : AccId) (t : ProxyType) (c : Call) (x : AccId × Call) :
    x ∈ executed derive (proxied real t) c ↔ Reached derive (proxied real t) c x :=
  ⟨executed_reached derive _ c x, reached_executed derive⟩

/-- `Staking::staking_delegate`. -/
def stakingDelegate : Call := .plain .staking 0

/-- The full claim is false: a non-transfer proxy may run `staking_delegate`, which transfers DPR of the
represented account to the staking pallet; the represented account of the example ends with 150 units less. -/
theorem C50_moves_funds :
    (1, stakingDelegate) ∈ executed (fun a i => a + i) (proxied 1 .nonTransfer) stakingDelegate ∧
    (let s := StakingCredit.exState [0, 50, 120, 200]
     let r := StakingCredit.step StakingCredit.exCfg s (.stake 1 true 3 [1, 2])
     StakingCredit.free r.1 1 + 150 = StakingCredit.free s 1) := by
  refine ⟨?_, by decide +kernel⟩
  simp [executed, stakingDelegate, Origin.allows, proxied, proxyFilter, ProxyType.filter, Call.pallet]

/-- A batch of a non-transfer proxy: the transfer is dropped, the other calls run. -/
example : (executed (fun a i => a + i) (proxied 1 .nonTransfer)
    (.batch [.plain .balances 0, .asDerivative 5 (.batch [.vestedTransfer, .plain .democracy 2]), .addProxy .any,
      .addProxy .governance])).map (fun x => (x.1, x.2.pallet)) =
    [(1, .utility), (1, .utility), (6, .utility), (6, .democracy), (1, .proxy)] := by decide +kernel

/-! ### C51 -/

/-- The parts of a single amount. -/
theorem ration_spec (v : Nat) : (ration v 80 20).1 + (ration v 80 20).2 = v ∧
    (v * 80 < 2 ^ 128 → (ration v 80 20).1 = v * 80 / 100) := by
  unfold ration
  rw [if_neg (by decide)]
  simp only
  refine ⟨by omega, fun h => ?_⟩
  rw [Nat.min_eq_left (show v * 80 ≤ u128Max from by unfold u128Max; omega)]
  omega

/-- Nothing is lost in the split, for every fee and tip; for all amounts below 2^128 / 80 the treasury gets 80
per cent of each, rounded down. -/
theorem C51_shares (fee : Balance) (tip : Option Balance) :
    (split fee tip).1 + (split fee tip).2 = fee + tip.getD 0 ∧
    (fee * 80 < 2 ^ 128 → tip.getD 0 * 80 < 2 ^ 128 →
      (split fee tip).1 = fee * 80 / 100 + tip.getD 0 * 80 / 100) := by
  have h1 := ration_spec fee
  cases tip with
  | none =>
    simp only [split, Option.getD_none]
    exact ⟨by omega, fun h _ => by have := h1.2 h; omega⟩
  | some t =>
    have h2 := ration_spec t
    simp only [split, Option.getD_some]
    exact ⟨by omega, fun h h' => by have := h1.2 h; have := h2.2 h'; omega⟩

/-- Charging a transaction moves the fee and the tip from the payer to treasury and author: with existing
accounts for both, each gets its share, no other account changes and no money appears or vanishes. -/
theorem C51_charge (b b' : Bank) (payer treasury author : AccId) (fee tip : Balance) (hi : b.Inv)
    (h : charge b payer treasury (some author) fee tip = .ok b')
    (h1 : payer ≠ treasury) (h2 : payer ≠ author) (h3 : treasury ≠ author)
    (ht : b.accts.contains treasury = true) (ha : b.accts.contains author = true) :
    b'.free payer + (fee + tip) = b.free payer ∧
    b'.free treasury = b.free treasury + (split fee (some tip)).1 ∧
    b'.free author = b.free author + (split fee (some tip)).2 ∧
    (∀ a, a ≠ payer → a ≠ treasury → a ≠ author → b'.acct a = b.acct a) ∧ b'.sumAll = b.sumAll := by
  unfold charge at h
  split at h
  · cases h
  · rename_i b1 hb1
    cases h
    have hk := Bank.withdraw_keep hi hb1
    have hi1 := Bank.withdraw_inv hi hb1
    obtain ⟨k1, k2, k3, _, k5, k6, _, _⟩ := hk
    have hs := (C51_shares fee (some tip)).1
    simp only [Option.getD_some] at hs
    simp only [dealWithFees, payAuthor]
    generalize hx : (split fee (some tip)).1 = x at hs
    generalize hy : (split fee (some tip)).2 = y at hs
    have d1 := Bank.depositCreating_credit (v := x) hi1 (.inl (by rw [k6]; exact ht))
    have hi2 := Bank.depositCreating_inv hi1 treasury x
    have n1 := fun a => Bank.depositCreating_ne (b := b1) (a := treasury) (a' := a) x
    have hca : (b1.depositCreating treasury x).accts.contains author = true := by
      rw [(n1 author h3.symm).2, k6]; exact ha
    have d2 := Bank.depositCreating_credit (v := y) hi2 (.inl hca)
    have n2 := fun a => Bank.depositCreating_ne (b := b1.depositCreating treasury x) (a := author) (a' := a) y
    refine ⟨?_, ?_, ?_, ?_, ?_⟩
    · show (Bank.acct _ payer).free + _ = _
      rw [(n2 payer h2).1, (n1 payer h1).1]
      show b1.free payer + _ = _
      omega
    · show (Bank.acct _ treasury).free = _
      rw [(n2 treasury h3).1]
      show (b1.depositCreating treasury x).free treasury = _
      rw [d1.2.1]
      show (b1.acct treasury).free + x = _
      rw [k5 treasury h1.symm]; rfl
    · rw [d2.2.1]
      show (Bank.acct _ author).free + y = _
      rw [(n1 author h3.symm).1, k5 author h2.symm]; rfl
    · intro a a1 a2 a3
      rw [(n2 a a3).1, (n1 a a2).1, k5 a a1]
    · omega

/-- Without a known author the part of the author is burnt. -/
theorem C51_no_author (b b' : Bank) (payer treasury : AccId) (fee tip : Balance) (hi : b.Inv)
    (h : charge b payer treasury none fee tip = .ok b') (h1 : payer ≠ treasury)
    (ht : b.accts.contains treasury = true) :
    b'.free payer + (fee + tip) = b.free payer ∧
    b'.free treasury = b.free treasury + (split fee (some tip)).1 ∧
    b'.sumAll + (split fee (some tip)).2 = b.sumAll := by
  unfold charge at h
  split at h
  · cases h
  · rename_i b1 hb1
    cases h
    have hi1 := Bank.withdraw_inv hi hb1
    obtain ⟨k1, k2, k3, _, k5, k6, _, _⟩ := Bank.withdraw_keep hi hb1
    have hs := (C51_shares fee (some tip)).1
    simp only [Option.getD_some] at hs
    simp only [dealWithFees, payAuthor]
    generalize hx : (split fee (some tip)).1 = x at hs
    generalize hy : (split fee (some tip)).2 = y at hs
    have d1 := Bank.depositCreating_credit (v := x) hi1 (.inl (by rw [k6]; exact ht))
    have n1 := fun a => Bank.depositCreating_ne (b := b1) (a := treasury) (a' := a) x
    refine ⟨?_, ?_, ?_⟩
    · show (Bank.acct _ payer).free + _ = _
      rw [(n1 payer h1).1]
      show b1.free payer + _ = _
      omega
    · rw [d1.2.1]
      show (b1.acct treasury).free + x = _
      rw [k5 treasury h1.symm]; rfl
    · omega

def exBank : Bank :=
  { ed := 1, accts := (((∅ : FMap AccId Acct).insert 1 ⟨1000, 0⟩).insert 2 ⟨1000, 0⟩).insert 3 ⟨500, 0⟩,
    frozen := fun _ => 0, pinned := fun _ => true, issuance := 2500 }

example : let r := (charge exBank 1 2 (some 3) 104 7).toOption
    r.map (fun b => (b.free 1, b.free 2, b.free 3, b.sumAll, b.issuance)) = some (889, 1088, 523, 2500, 2500) := by
  decide +kernel

/-- An author whose account does not exist loses a share below the existential deposit: it is burnt. -/
example : let r := (charge { exBank with ed := 50 } 1 2 (some 9) 104 7).toOption
    r.map (fun b => (b.free 2, b.free 9, b.sumAll)) = some (1088, 0, 2477) := by decide +kernel

/-! ### C52 -/

theorem execute_isSome (a : Nat) : (execute a).isSome = true ↔ a ∈ arms.map (·.1) := by
  unfold execute
  rw [Option.isSome_map, List.find?_isSome]
  simp only [decide_eq_true_eq, List.mem_map]
  constructor
  · rintro ⟨x, h1, h2⟩; exact ⟨x, h1, h2.symm⟩
  · rintro ⟨x, h1, h2⟩; exact ⟨x, h1, h2.symm⟩

/-- Up to two addresses, an address is reported as a precompile exactly if it is executed as one.

Missing for the full property: the addresses 10 and 1030, see `C52_fails`. -/
theorem C52_partial (a : Nat) (h10 : a ≠ 10) (h1030 : a ≠ 1030) : isPrecompile a = true ↔ (execute a).isSome = true := by
  have h1 : isPrecompile a = true ↔ a ∈ usedAddresses := by unfold isPrecompile; exact List.contains_iff_mem
  rw [h1, execute_isSome]
  simp only [usedAddresses, arms, List.map_cons, List.map_nil, List.mem_cons, List.not_mem_nil, or_false]
  omega

/-- Address 10 is reported but executes nothing; the credit precompile 1030 is executed but not reported. -/
theorem C52_fails : isPrecompile 10 = true ∧ execute 10 = none ∧ isPrecompile 1030 = false ∧ execute 1030 = some .credit := by
  decide

/-- The address of a precompile. -/
def Precompile.address : Precompile → Nat
  | .ecRecover => 1 | .sha256 => 2 | .ripemd160 => 3 | .identity => 4 | .modexp => 5 | .bn128Add => 6
  | .bn128Mul => 7 | .bn128Pairing => 8 | .blake2F => 9 | .sha3Fips256 => 1024 | .ecRecoverPublicKey => 1025
  | .dispatch => 1026 | .curve25519Add => 1027 | .curve25519ScalarMul => 1028 | .ed25519Verify => 1029
  | .credit => 1030

/-- Every precompile runs at exactly one address. -/
theorem C52_addresses (a : Nat) (p : Precompile) : execute a = some p ↔ a = p.address := by
  constructor
  · intro h
    unfold execute at h
    obtain ⟨x, hx, hp⟩ := Option.map_eq_some_iff.mp h
    have h1 := List.mem_of_find?_eq_some hx
    have h2 : a = x.1 := by simpa using List.find?_some hx
    have h3 : ∀ x ∈ arms, x.1 = x.2.address := by decide
    rw [h2, h3 x h1, hp]
  · intro h
    subst h
    cases p <;> decide

example : isPrecompile 1026 = true ∧ execute 1026 = some .dispatch ∧ isPrecompile 11 = false ∧ execute 11 = none := by
  decide

end Verif.Runtime
