import Verif.CreditAccumulation
import Verif.CreditProperties
import Mathlib.Data.List.Induction

/-
Properties C08 and C60: traffic reports.
-/

namespace Verif.CreditAccumulation

/-- Specification: nonces of the accepted reports of an account, in order. -/
def acceptedNonces (a : AccId) (tr : List (State × Op × Out)) : List Nat :=
  tr.filterMap fun e => match e with
    | (_, .report b n _, o) =>
      if b = a ∧ o ≠ .invalidNonce ∧ o ≠ .invalidSignature then some n else none
    | _ => none

theorem reportOut_ne (o : Credit.Out) : reportOut o ≠ .invalidNonce ∧ reportOut o ≠ .invalidSignature := by
  cases o <;> simp [reportOut]

theorem run_nonces (cfg : Credit.Cfg) (cr : Crypto) (a : AccId) (ops : List Op) (s : State) (n : Nat)
    (hn : (s.nonce.get a).getD 0 = n % 2 ^ 64) :
    acceptedNonces a (run cfg cr s ops).2
        = (List.range' n (acceptedNonces a (run cfg cr s ops).2).length).map (· % 2 ^ 64) ∧
      ((run cfg cr s ops).1.nonce.get a).getD 0
        = (n + (acceptedNonces a (run cfg cr s ops).2).length) % 2 ^ 64 := by
  induction ops generalizing s n with
  | nil => simp [run, acceptedNonces, hn]
  | cons op ops ih =>
    cases op with
    | report b m sig =>
      by_cases hnon : m = (s.nonce.get b).getD 0
      · cases hsig : verifySignature cr s m sig b with
        | false =>
          have : step cfg cr s (.report b m sig) = (s, .invalidSignature) := by
            simp [step, hnon] at hsig ⊢; simp [hsig]
          have ih := ih s n hn
          simp only [run, this, acceptedNonces, List.filterMap_cons] at ih ⊢
          simpa using ih
        | true =>
          have hst : step cfg cr s (.report b m sig) =
              ({ s with nonce := s.nonce.insert b ((m + 1) % 2 ^ 64),
                        credit := (Credit.step cfg s.credit (.traffic b)).1 },
               reportOut (Credit.step cfg s.credit (.traffic b)).2) := by
            simp only [step, ← hnon, hsig]; simp
          by_cases hb : b = a
          · subst hb
            have ih := ih (step cfg cr s (.report b m sig)).1 (n + 1) (by
              rw [hst, ← hnon] at *
              simp only [FMap.get_insert_self, Option.getD_some]
              omega)
            have hcons : acceptedNonces b (run cfg cr s (.report b m sig :: ops)).2
                = m :: acceptedNonces b (run cfg cr (step cfg cr s (.report b m sig)).1 ops).2 := by
              simp only [run, acceptedNonces, List.filterMap_cons]
              rw [hst]
              simp [reportOut_ne]
            rw [hcons]
            simp only [List.length_cons, List.range'_succ, List.map_cons, List.cons.injEq]
            refine ⟨⟨by omega, ih.1⟩, ?_⟩
            simp only [run]
            rw [ih.2]
            congr 1; omega
          · have ih := ih (step cfg cr s (.report b m sig)).1 n (by
              rw [hst]; simp only [FMap.get_insert_ne _ _ (fun h : a = b => hb h.symm), hn])
            simp only [run, acceptedNonces, List.filterMap_cons, hb, false_and, if_false] at ih ⊢
            exact ih
      · have : step cfg cr s (.report b m sig) = (s, .invalidNonce) := by simp [step, hnon]
        have ih := ih s n hn
        simp only [run, this, acceptedNonces, List.filterMap_cons] at ih ⊢
        simpa using ih
    | setKey root k => cases root <;> exact ih _ n hn
    | setTmpKey root k => cases root <;> exact ih _ n hn
    | credit op => exact ih _ n hn

/-- **C08**: in every history that starts without recorded nonces and has at most 2^64 calls, the
accepted reports of each account carry the nonces 0, 1, 2, ... in order without gap or repetition,
whatever the signature check says. In particular a report with a given nonce is accepted at most
once. -/
theorem C08_nonces_consecutive (cfg : Credit.Cfg) (cr : Crypto) (c : Credit.State) (ops : List Op)
    (hlen : ops.length ≤ 2 ^ 64) (a : AccId) :
    let accepted := acceptedNonces a (run cfg cr { credit := c } ops).2
    accepted = List.range accepted.length ∧ accepted.Nodup := by
  intro accepted
  have h := (run_nonces cfg cr a ops { credit := c } 0 (by simp)).1
  have hl : ∀ (ops : List Op) (s : State), (run cfg cr s ops).2.length = ops.length := by
    intro ops
    induction ops with
    | nil => intro s; rfl
    | cons op ops ih => intro s; simp [run, ih]
  have hle : accepted.length ≤ 2 ^ 64 := by
    refine Nat.le_trans (List.length_filterMap_le _ _) ?_
    rw [hl]; exact hlen
  have h2 : accepted = List.range accepted.length := by
    change accepted = _ at h
    rw [← List.range_eq_range'] at h
    have h3 : (List.range accepted.length).map (· % 2 ^ 64) = List.range accepted.length := by
      conv => rhs; rw [← List.map_id (List.range accepted.length)]
      apply List.map_congr_left
      intro x hx
      rw [List.mem_range] at hx
      exact Nat.mod_eq_of_lt (by omega)
    rw [h3] at h
    exact h
  exact ⟨h2, by rw [h2]; exact List.nodup_range⟩

/-- Example cryptography: the hash is the identity and a signature is valid if its first byte is the
last byte of the key. -/
def exCrypto : Crypto := ⟨id, fun sig _ key => sig.head? == key.getLast?⟩

def exSig (n : Nat) : List Nat := n :: List.replicate 63 0

def exOps : List Op :=
  [.setKey true 5, .setTmpKey true 6, .credit (Credit.exTime 20 1000 0), .report 1 0 (exSig 5), .report 1 0 (exSig 5),
   .report 2 0 (exSig 6), .report 1 1 (exSig 7), .report 1 1 (exSig 6), .report 1 3 (exSig 5)]

example : (run Credit.exCfg exCrypto { credit := Credit.exGenesis } exOps).2.map (·.2.2) =
    [.done, .done, .done, .accepted true, .invalidNonce, .accepted true, .invalidSignature,
      .accepted false, .invalidNonce] ∧
    acceptedNonces 1 (run Credit.exCfg exCrypto { credit := Credit.exGenesis } exOps).2 = [0, 1] := by
  decide +kernel

/-! ### C60 -/

/-- Two signed messages (same key) for different senders or nonces are different. -/
theorem message_inj {k k' n n' a a' : Nat} (hn : n < 2 ^ 64) (hn' : n' < 2 ^ 64)
    (hk : k < 2 ^ 256) (hk' : k' < 2 ^ 256) (ha : a < 2 ^ 256) (ha' : a' < 2 ^ 256)
    (h : message k n a = message k' n' a') : k = k' ∧ n = n' ∧ a = a' := by
  unfold message encodeAccount at h
  have h1 := List.append_inj h (by simp)
  have h2 := List.append_inj h1.1 (by simp)
  exact ⟨toBE_inj (by simpa using hk) (by simpa using hk') h2.1,
    toBE_inj (by simpa using hn) (by simpa using hn') h2.2,
    toBE_inj (by simpa using ha) (by simpa using ha') h1.2⟩

/-- **C60** (partial): once root has configured both keys, a report is accepted only with a signature
by one of them over exactly this sender and this nonce (the signed bytes are different for every
other sender, nonce or key).

Missing for the full claim: states in which a key is not configured; there signatures by the zero
account pass, see `C60_unset_key_accepts_zero_account`. -/
theorem C60_report_signed_partial (cfg : Credit.Cfg) (cr : Crypto) (s : State) (a nonce k t : Nat)
    (sig : List Nat) (hk : s.key = some k) (ht : s.tmpKey = some t)
    (h : (step cfg cr s (.report a nonce sig)).2 ≠ .invalidNonce ∧
      (step cfg cr s (.report a nonce sig)).2 ≠ .invalidSignature) :
    ∃ signer, (signer = k ∨ signer = t) ∧
      cr.verify (sigBytes sig) (cr.blake (message signer nonce a)) (toBE 32 signer) = true ∧
      (signer < 2 ^ 256 → nonce < 2 ^ 64 → a < 2 ^ 256 → ∀ k' n' a', k' < 2 ^ 256 → n' < 2 ^ 64 →
        a' < 2 ^ 256 → (k', n', a') ≠ (signer, nonce, a) →
        message k' n' a' ≠ message signer nonce a) := by
  have hv : verifySignature cr s nonce sig a = true := by
    cases hv : verifySignature cr s nonce sig a with
    | true => rfl
    | false =>
      exfalso
      simp only [step, hv] at h
      split at h
      · exact h.1 rfl
      · exact h.2 rfl
  have hinj : ∀ signer : Nat, signer < 2 ^ 256 → nonce < 2 ^ 64 → a < 2 ^ 256 → ∀ k' n' a',
      k' < 2 ^ 256 → n' < 2 ^ 64 → a' < 2 ^ 256 → (k', n', a') ≠ (signer, nonce, a) →
      message k' n' a' ≠ message signer nonce a := by
    intro signer h1 h2 h3 k' n' a' h4 h5 h6 hne heq
    obtain ⟨rfl, rfl, rfl⟩ := message_inj h5 h2 h4 h1 h6 h3 heq
    exact hne rfl
  unfold verifySignature at hv
  rw [hk, ht, Bool.or_eq_true] at hv
  rcases hv with hv | hv
  · exact ⟨k, Or.inl rfl, hv, hinj k⟩
  · exact ⟨t, Or.inr rfl, hv, hinj t⟩

example : let s : State := { credit := Credit.exGenesis, key := some 5, tmpKey := some 6 }
    (step Credit.exCfg exCrypto s (.report 1 0 (exSig 6))).2 = .accepted false := by decide +kernel

/-- The full claim of C60 fails: before root configures the second key it counts as the zero account,
so a signature valid for the zero account is accepted although root has configured only key 5. -/
theorem C60_unset_key_accepts_zero_account :
    ∃ ops, (∀ r k, Op.setTmpKey r k ∉ ops) ∧ (∀ r k, Op.setKey r k ∈ ops → k = 5) ∧
      (∃ m, exCrypto.verify (exSig 0) m (toBE 32 5) = false) ∧
      acceptedNonces 1 (run Credit.exCfg exCrypto { credit := Credit.exGenesis } ops).2 = [0] := by
  refine ⟨[.setKey true 5, .report 1 0 (exSig 0)], by simp, by simp, ⟨[], by decide⟩, by decide +kernel⟩

/-! ### C100 -/

/-- Specification: the last key set by root, in the slot chosen by `pick`; the zero account if none. -/
def lastKey (pick : Op → Option AccId) (tr : List (State × Op × Out)) : AccId :=
  tr.foldl (fun k e => (pick e.2.1).getD k) 0

/-- Keys set by root with the two calls. -/
def mainKey : Op → Option AccId
  | .setKey true k => some k
  | _ => none

def temporaryKey : Op → Option AccId
  | .setTmpKey true k => some k
  | _ => none

/-- A signature of `signer` (as public key) over its own encoding, the nonce and the reporting account. -/
def signedBy (cr : Crypto) (sig : List Nat) (nonce : Nat) (a signer : AccId) : Prop :=
  cr.verify (if sig.length = 64 then sig else List.replicate 64 0)
    (cr.blake (toBE 32 signer ++ toBE 8 nonce ++ toBE 32 a)) (toBE 32 signer) = true

theorem run_append (cfg : Credit.Cfg) (cr : Crypto) (ops ops' : List Op) : ∀ s,
    run cfg cr s (ops ++ ops') = ((run cfg cr (run cfg cr s ops).1 ops').1,
      (run cfg cr s ops).2 ++ (run cfg cr (run cfg cr s ops).1 ops').2) := by
  induction ops with
  | nil => intro s; rfl
  | cons op ops ih => intro s; simp only [List.cons_append, run, ih]

theorem run_keys (cfg : Credit.Cfg) (cr : Crypto) (c : Credit.State) (ops : List Op) :
    (run cfg cr { credit := c } ops).1.key.getD 0 = lastKey mainKey (run cfg cr { credit := c } ops).2 ∧
    (run cfg cr { credit := c } ops).1.tmpKey.getD 0 =
      lastKey temporaryKey (run cfg cr { credit := c } ops).2 := by
  induction ops using List.reverseRecOn with
  | nil => exact ⟨rfl, rfl⟩
  | append_singleton ops op ih =>
    rw [run_append]
    simp only [run, lastKey, List.foldl_append, List.foldl_cons, List.foldl_nil] at ih ⊢
    generalize (run cfg cr { credit := c } ops).1 = s at ih ⊢
    rw [← ih.1, ← ih.2]
    cases op with
    | report a n sig =>
      simp only [step]
      split
      · exact ⟨rfl, rfl⟩
      split
      · exact ⟨rfl, rfl⟩
      · exact ⟨rfl, rfl⟩
    | setKey r k => cases r <;> exact ⟨rfl, rfl⟩
    | setTmpKey r k => cases r <;> exact ⟨rfl, rfl⟩
    | credit o => exact ⟨rfl, rfl⟩

/-- C100. After any history, a traffic report is accepted exactly if it carries the number of reports
accepted from the account before (as 64-bit number) and is signed by the key last set by root in one of
the two slots. An accepted report lets the credit pallet count the traffic and is itself counted,
for this account only; a refused one changes nothing. -/
theorem C100_report (cfg : Credit.Cfg) (cr : Crypto) (c : Credit.State) (ops : List Op) (a nonce : Nat)
    (sig : List Nat) :
    let s := (run cfg cr { credit := c } ops).1
    let tr := (run cfg cr { credit := c } ops).2
    let r := step cfg cr s (.report a nonce sig)
    ((r.2 ≠ .invalidNonce ∧ r.2 ≠ .invalidSignature) ↔
      nonce = (acceptedNonces a tr).length % 2 ^ 64 ∧
      (signedBy cr sig nonce a (lastKey mainKey tr) ∨ signedBy cr sig nonce a (lastKey temporaryKey tr))) ∧
    ((r.2 ≠ .invalidNonce ∧ r.2 ≠ .invalidSignature) →
      r.1.credit = (Credit.step cfg s.credit (.traffic a)).1 ∧
      r.2 = reportOut (Credit.step cfg s.credit (.traffic a)).2 ∧
      ∀ b, b ≠ a → r.1.nonce.get b = s.nonce.get b) ∧
    (r.2 = .invalidNonce ∨ r.2 = .invalidSignature → r.1 = s) := by
  intro s tr r
  have hn := (run_nonces cfg cr a ops { credit := c } 0 (by simp)).2
  rw [Nat.zero_add] at hn
  obtain ⟨hk, ht⟩ := run_keys cfg cr c ops
  have hv : verifySignature cr s nonce sig a = true ↔
      signedBy cr sig nonce a (lastKey mainKey tr) ∨ signedBy cr sig nonce a (lastKey temporaryKey tr) := by
    rw [← hk, ← ht]
    unfold verifySignature
    rw [Bool.or_eq_true]
    exact Iff.rfl
  rw [← hv, ← hn]
  show ((r.2 ≠ .invalidNonce ∧ r.2 ≠ .invalidSignature) ↔ nonce = (s.nonce.get a).getD 0 ∧ _) ∧ _
  have hne := reportOut_ne (Credit.step cfg s.credit (.traffic a)).2
  by_cases h1 : nonce ≠ (s.nonce.get a).getD 0
  · have e : r = (s, .invalidNonce) := by simp only [r, step, if_pos h1]
    rw [e]
    exact ⟨⟨fun h => absurd rfl h.1, fun h => absurd h.1 h1⟩, fun h => absurd rfl h.1, fun _ => rfl⟩
  · cases hs : verifySignature cr s nonce sig a with
    | false =>
      have e : r = (s, .invalidSignature) := by
        simp only [r, step, if_neg h1, hs, Bool.not_false, if_true]
      rw [e]
      exact ⟨⟨fun h => absurd rfl h.2, fun h => (by cases h.2)⟩, fun h => absurd rfl h.2, fun _ => rfl⟩
    | true =>
      have e : r = ({ s with nonce := s.nonce.insert a (((s.nonce.get a).getD 0 + 1) % 2 ^ 64), credit := (Credit.step cfg s.credit (.traffic a)).1 }, reportOut (Credit.step cfg s.credit (.traffic a)).2) := by
        simp only [r, step, if_neg h1, hs, Bool.not_true, Bool.false_eq_true, if_false]
      rw [e]
      refine ⟨⟨fun _ => ⟨Classical.byContradiction h1, rfl⟩, fun _ => hne⟩,
        fun _ => ⟨rfl, rfl, fun b hb => FMap.get_insert_ne _ _ hb⟩, fun h => ?_⟩
      rcases h with h | h
      · exact absurd h hne.1
      · exact absurd h hne.2

/-- C100, signatures for other pallets: what the device registry asks for is a signature by one of the
two keys (credit proofs), or by the main key only (reward mapping). -/
theorem C100_signatures (cfg : Credit.Cfg) (cr : Crypto) (c : Credit.State) (ops : List Op) (a nonce : Nat)
    (sig : List Nat) :
    let s := (run cfg cr { credit := c } ops).1
    let tr := (run cfg cr { credit := c } ops).2
    (verifySignature cr s nonce sig a = true ↔
      signedBy cr sig nonce a (lastKey mainKey tr) ∨ signedBy cr sig nonce a (lastKey temporaryKey tr)) ∧
    (verifyNewSignature cr s nonce sig a = true ↔ signedBy cr sig nonce a (lastKey mainKey tr)) := by
  intro s tr
  obtain ⟨hk, ht⟩ := run_keys cfg cr c ops
  rw [← hk, ← ht]
  refine ⟨?_, Iff.rfl⟩
  unfold verifySignature
  rw [Bool.or_eq_true]
  exact Iff.rfl

/-- C100, keys: only root sets them; nothing else is changed by it, and no other call of this pallet
changes them. -/
theorem C100_keys (cfg : Credit.Cfg) (cr : Crypto) (s : State) (root : Bool) (k : AccId) :
    ((step cfg cr s (.setKey root k)).2 = .done ↔ root = true) ∧
    ((step cfg cr s (.setTmpKey root k)).2 = .done ↔ root = true) ∧
    (step cfg cr s (.setKey false k)).1 = s ∧ (step cfg cr s (.setTmpKey false k)).1 = s ∧
    (step cfg cr s (.setKey root k)).1.credit = s.credit ∧
    (step cfg cr s (.setTmpKey root k)).1.credit = s.credit ∧
    (step cfg cr s (.setKey root k)).1.nonce = s.nonce ∧
    (step cfg cr s (.setTmpKey root k)).1.nonce = s.nonce := by
  cases root <;> simp [step]

/-- Rotation: after the main key was replaced its signatures are refused, those of the temporary key
are still accepted. -/
example :
    let s := (run Credit.exCfg exCrypto { credit := Credit.exGenesis } [.setKey true 5, .setTmpKey true 6,
      .credit (Credit.exTime 20 1000 0), .report 1 0 (exSig 5), .setKey false 6, .setKey true 8]).1
    (step Credit.exCfg exCrypto s (.report 1 1 (exSig 5))).2 = .invalidSignature ∧
    (step Credit.exCfg exCrypto s (.report 1 1 (exSig 6))).2 ≠ .invalidSignature ∧
    (step Credit.exCfg exCrypto s (.report 1 0 (exSig 6))).2 = .invalidNonce ∧
    verifyNewSignature exCrypto s 1 (exSig 6) 1 = false ∧ verifyNewSignature exCrypto s 1 (exSig 8) 1 = true := by
  decide +kernel

end Verif.CreditAccumulation
