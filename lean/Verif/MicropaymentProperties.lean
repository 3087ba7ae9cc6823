import Verif.MicropaymentProofs
import Mathlib.Data.List.Nodup

/-
Properties C01 - C07 and C56 of the micropayment pallet.
-/

namespace Verif.Micropayment

theorem reachable_inv {cfg : Config} {s : State} (h : Reachable cfg s) : Inv s := by
  obtain ⟨b, n, e, ops, rfl⟩ := h
  exact run_inv ops (genesis_inv b n e)

/-- A small concrete setting used by the examples: client 1 and server 2 with money, treasury 9. -/
def exCfg : Config := ⟨5, 10, 9, id, fun _ _ _ => true⟩

def exBank : Bank :=
  { ed := 10, accts := ((FMap.empty.insert 1 ⟨1000, 0⟩).insert 2 ⟨50, 0⟩).insert 9 ⟨100, 0⟩,
    frozen := fun _ => 0, pinned := fun _ => false, issuance := 1150 }

def exOps : List Op := [.openChannel 1 2 500 100, .claim 2 1 7 40 [], .addBalance 1 2 60]

theorem exBank_inv : exBank.Inv := by
  refine ⟨by decide, by decide, ?_⟩
  intro a x h
  simp only [exBank, FMap.get_insert, FMap.get_empty'] at h
  split at h
  · cases h; decide
  split at h
  · cases h; decide
  split at h
  · cases h; decide
  cases h

/-! ### C01 -/

/-- **C01**: the reported total of an account is the sum of the balances of its open channels, after
every history. -/
theorem C01_escrow_total (cfg : Config) (b : Bank) (block : Nat) (eras : AccId → Nat)
    (ops : List Op) (c : AccId) :
    ((run cfg (genesis b block eras) ops).1.totals.get c).getD 0
      = escrow (run cfg (genesis b block eras) ops).1 c :=
  (run_inv ops (genesis_inv b block eras)).total c

/-- The example history really puts 520 tokens into escrow. -/
example : escrow (run exCfg (genesis exBank 0 (fun _ => 0)) exOps).1 1 = 520 := by decide

/-! ### C02 -/

/-- **C02** (a): no history of micropayment calls creates money. -/
theorem C02_no_creation (cfg : Config) (s : State) (ops : List Op) (hb : s.bank.Inv)
    (hops : ∀ op ∈ ops, op.signer ≠ none) :
    wealth (run cfg s ops).1 ≤ wealth s := by
  induction ops generalizing s with
  | nil => exact Nat.le_refl _
  | cons op ops ih =>
    have hext : ∀ n e b, op ≠ .external n e b := by
      rintro n e b rfl
      exact hops (.external n e b) (by simp) rfl
    simp only [run]
    by_cases he : (body cfg s op).err = none
    · have hbw := body_wealth hb hext he
      have hst : (step cfg s op).1 = (body cfg s op).state := by simp [step, he]
      have := ih (step cfg s op).1 (by rw [hst]; exact hbw.1)
        (fun o ho => hops o (by simp [ho]))
      rw [hst] at this ⊢
      omega
    · have hst : (step cfg s op).1 = s := by
        unfold step
        split
        · rename_i h; exact absurd h he
        · rfl
      rw [hst]
      exact ih s hb (fun o ho => hops o (by simp [ho]))

/-- **C02** (b): a call conserves the sum of account and channel balances exactly when the accounts
of the treasury and of the channel ends exist. -/
theorem C02_conservation (cfg : Config) (s : State) (op : Op) (hb : s.bank.Inv)
    (hop : op.signer ≠ none) (ht : s.bank.accts.contains cfg.treasury = true)
    (hends : ∀ c srv ch, channel s c srv = some ch →
      s.bank.accts.contains c = true ∧ s.bank.accts.contains srv = true) :
    wealth (step cfg s op).1 = wealth s := by
  have hext : ∀ n e b, op ≠ .external n e b := by
    rintro n e b rfl
    exact hop rfl
  unfold step
  split
  · rename_i he
    exact (body_wealth hb hext he).2.2 ht hends
  · rfl

/-- Conservation in the example: 1150 tokens before and after. -/
example : wealth (run exCfg (genesis exBank 0 (fun _ => 0)) exOps).1 = 1150 := by decide

/-- Without the existence condition money can be lost: a claim of 4 tokens (below the existential
deposit 10) by a server without account lowers the channel but credits nobody. -/
theorem C02_loss_without_account :
    ∃ s op, s.bank.Inv ∧ op.signer ≠ none ∧ wealth (step exCfg s op).1 + 4 = wealth s := by
  refine ⟨(run exCfg (genesis exBank 0 (fun _ => 0)) [.openChannel 1 3 500 100]).1,
    .claim 3 1 0 4 [], ?_, by simp [Op.signer], by decide⟩
  have h := body_wealth (cfg := exCfg) (s := genesis exBank 0 (fun _ => 0)) exBank_inv
    (op := .openChannel 1 3 500 100) (by intro _ _ _; simp) (by decide)
  exact h.1

/-! ### C03 -/

/-- **C03** (a): the payments ever made on one incarnation (nonce) of a channel carry consecutive
session ids. -/
theorem C03_sessions_consecutive (cfg : Config) (b : Bank) (block : Nat) (eras : AccId → Nat)
    (ops : List Op) (c srv : AccId) (n : Nat) (i : Nat)
    (h : i + 1 < (paidSessions (run cfg (genesis b block eras) ops).2 c srv n).length) :
    (paidSessions (run cfg (genesis b block eras) ops).2 c srv n)[i + 1]
      = (paidSessions (run cfg (genesis b block eras) ops).2 c srv n)[i] + 1 := by
  have := (run_hist (cfg := cfg) ops (genesis_inv b block eras) (genesis_hist b block eras)).chain
    c srv n
  simp only [List.nil_append] at this
  exact List.isChain_iff_getElem.1 this i h

/-- **C03** (b): two payments of the same voucher are a full wrap-around of the 32-bit session
counter apart, whatever the signature check does. -/
theorem C03_replay_needs_wraparound (cfg : Config) (b : Bank) (block : Nat) (eras : AccId → Nat)
    (ops : List Op) (c srv : AccId) (n : Nat) (i j : Nat)
    (hij : i < j)
    (hj : j < (paidSessions (run cfg (genesis b block eras) ops).2 c srv n).length)
    (heq : (paidSessions (run cfg (genesis b block eras) ops).2 c srv n)[i]
      = (paidSessions (run cfg (genesis b block eras) ops).2 c srv n)[j]) :
    2 ^ 32 ≤ j - i := by
  have hc := (run_hist (cfg := cfg) ops (genesis_inv b block eras)
    (genesis_hist b block eras)).chain c srv n
  simp only [List.nil_append] at hc
  have h := chain_getElem _ hc i j (by omega) hj (by omega)
  rw [← heq] at h
  have h0 : BitVec.ofNat 32 (j - i) = 0#32 := by
    have h2 := congrArg (fun x => x - (paidSessions (run cfg (genesis b block eras) ops).2 c srv n)[i]) h
    simp only [BitVec.sub_self] at h2
    rw [BitVec.add_comm, BitVec.add_sub_cancel] at h2
    exact h2.symm
  have h3 := congrArg BitVec.toNat h0
  simp only [BitVec.toNat_ofNat] at h3
  have : (j - i) % 2 ^ 32 = 0 := by simpa using h3
  omega

/-- **C03**: as long as fewer than 2^32 claims were paid on one incarnation of a channel, each
voucher (client, server, nonce, session id) was paid at most once in the whole history. -/
theorem C03_voucher_paid_once (cfg : Config) (b : Bank) (block : Nat) (eras : AccId → Nat)
    (ops : List Op) (c srv : AccId) (n : Nat) (ses : BitVec 32)
    (hlen : (paidSessions (run cfg (genesis b block eras) ops).2 c srv n).length ≤ 2 ^ 32) :
    (paidSessions (run cfg (genesis b block eras) ops).2 c srv n).count ses ≤ 1 := by
  have hnd : (paidSessions (run cfg (genesis b block eras) ops).2 c srv n).Nodup := by
    rw [List.nodup_iff_pairwise_ne, List.pairwise_iff_getElem]
    intro i j hi hj hij heq
    have := C03_replay_needs_wraparound cfg b block eras ops c srv n i j hij hj heq
    omega
  exact List.nodup_iff_count_le_one.1 hnd ses

/-- Non-trivial instance: two payments, then a replay of the first is refused, also after the
channel was closed and reopened. -/
example : paidSessions (run exCfg (genesis exBank 0 (fun _ => 0))
    [.openChannel 1 2 500 100, .claim 2 1 7 40 [], .claim 2 1 8 1 [], .claim 2 1 7 40 [],
     .closeChannel 2 1, .openChannel 1 2 100 50, .claim 2 1 7 40 []]).2 1 2 0 = [7, 8] := by decide

/-! ### C04 -/

/-- One step of C04. -/
theorem protected_step {cfg : Config} {s : State} (hi : Inv s) {c srv : AccId} {ch : Chan}
    (hc : channel s c srv = some ch) (hexp : s.block ≤ ch.expiration)
    (hoff : s.erasOffline srv = 0) (op : Op) (hsig : op.signer ≠ some srv) :
    ∃ ch', channel (step cfg s op).1 c srv = some ch' ∧ ch.balance ≤ ch'.balance ∧
      ch'.nonce = ch.nonce ∧ ch'.expiration = ch.expiration := by
  unfold channel at *
  have same : ∀ s' : State, s'.chans.get (c, srv) = some ch →
      ∃ ch', s'.chans.get (c, srv) = some ch' ∧ ch.balance ≤ ch'.balance ∧
        ch'.nonce = ch.nonce ∧ ch'.expiration = ch.expiration :=
    fun s' h => ⟨ch, h, Nat.le_refl _, rfl, rfl⟩
  unfold step
  cases he : (body cfg s op).err with
  | some e => exact same s hc
  | none =>
  simp only
  -- closing some channel other than (c, srv)
  have closeOther : ∀ (s' : State) c' srv' ch', (c', srv') ≠ (c, srv) →
      (refundAndClose cfg s' c' srv' ch').err = none →
      (refundAndClose cfg s' c' srv' ch').state.chans.get (c, srv) = s'.chans.get (c, srv) := by
    intro s' c' srv' ch' hne hr
    obtain ⟨b, -, hst, -⟩ := refundAndClose_ok hr
    rw [hst]
    simp only [closeRaw, lowerTotal]
    rw [FMap.get_erase_ne _ (Ne.symm hne)]
  cases op with
  | openChannel c' srv' l d =>
    simp only [body] at he ⊢
    obtain ⟨b, h1, -, -, h3, -⟩ := openChannel_ok he
    rw [h3]
    apply same
    simp only [raiseTotal]
    rw [FMap.get_insert_ne]
    · exact hc
    · intro e; rw [e] at hc; rw [h1] at hc; cases hc
  | closeChannel sg a =>
    simp only [body] at he ⊢
    have hsg : sg ≠ srv := fun e => hsig (by simp [Op.signer, e])
    rcases closeChannel_ok he with ⟨ch', h1, h2⟩ | ⟨ch', h1, hcond, h2⟩
    · rw [h2] at he ⊢
      have hne : (a, sg) ≠ (c, srv) := by intro e; cases e; exact hsg rfl
      apply same
      rw [closeOther s _ _ _ hne he]; exact hc
    · rw [h2] at he ⊢
      have hne : (sg, a) ≠ (c, srv) := by
        intro e; cases e
        rw [hc] at h1; cases h1
        have hsv := hi.server _ _ _ hc
        rw [hsv] at hcond
        omega
      apply same
      rw [closeOther s _ _ _ hne he]; exact hc
  | closeExpired c' o =>
    simp only [body] at he ⊢
    have heq := closeExpired_ok he
    rw [heq] at he ⊢
    have := closeExpiredLoop_ind cfg c'
      (fun s' => s'.chans.get (c, srv) = some ch ∧ s'.block = s.block) ?_ o s ⟨hc, rfl⟩ he
    · exact same _ this.1
    · rintro s' srv' ch' ⟨p1, p2⟩ h1 hx hr
      have hne : (c', srv') ≠ (c, srv) := by
        intro e; cases e
        rw [p1] at h1; cases h1
        omega
      refine ⟨by rw [closeOther s' _ _ _ hne hr]; exact p1, ?_⟩
      obtain ⟨b, -, hst, -⟩ := refundAndClose_ok hr
      rw [hst]; exact p2
  | addBalance c' srv' a =>
    simp only [body] at he ⊢
    obtain ⟨ch', b, h1, -, h3, -⟩ := addBalance_ok he
    rw [h3]
    simp only [raiseTotal]
    by_cases hk : (c', srv') = (c, srv)
    · cases hk
      rw [hc] at h1; cases h1
      exact ⟨{ ch with balance := ch.balance + a }, by simp, by simp, rfl, rfl⟩
    · rw [FMap.get_insert_ne _ _ (Ne.symm hk)]
      exact same s hc
  | claim srv' c' ses a sig =>
    simp only [body] at he ⊢
    have hsg : srv' ≠ srv := fun e => hsig (by simp [Op.signer, e])
    have hne : (c', srv') ≠ (c, srv) := by intro e; cases e; exact hsg rfl
    obtain ⟨ch', h1, ⟨-, h2⟩ | ⟨-, -, -, -, b, -, h3, -⟩⟩ := claimPayment_ok he
    · rw [h2] at he ⊢
      apply same
      rw [closeOther s _ _ _ hne he]; exact hc
    · rw [h3]
      apply same
      simp only [lowerTotal]
      rw [FMap.get_insert_ne _ _ (Ne.symm hne)]; exact hc
  | external n e b => exact same _ hc

/-- **C04**: as long as a channel is unexpired and its server is not offline for an era, no history
of calls signed by anybody except the server closes the channel or lowers its balance. -/
theorem C04_escrow_protected (cfg : Config) (s : State) (hr : Reachable cfg s) (c srv : AccId)
    (ch : Chan) (hc : channel s c srv = some ch) (ops : List Op)
    (hsig : ∀ op ∈ ops, op.signer ≠ some srv)
    (hlive : Always cfg (fun s' => s'.block ≤ ch.expiration ∧ s'.erasOffline srv = 0) s ops) :
    ∃ ch', channel (run cfg s ops).1 c srv = some ch' ∧ ch.balance ≤ ch'.balance ∧
      ch'.nonce = ch.nonce ∧ ch'.expiration = ch.expiration := by
  have hi := reachable_inv hr
  clear hr
  induction ops generalizing s ch with
  | nil => exact ⟨ch, hc, Nat.le_refl _, rfl, rfl⟩
  | cons op ops ih =>
    simp only [Always] at hlive
    obtain ⟨⟨h1, h2⟩, h3⟩ := hlive
    obtain ⟨ch1, e1, e2, e3, e4⟩ := protected_step (cfg := cfg) hi hc h1 h2 op
      (hsig op (by simp))
    simp only [run]
    obtain ⟨ch2, f1, f2, f3, f4⟩ := ih (step cfg s op).1 ch1 e1
      (fun o ho => hsig o (by simp [ho])) (by rw [e4]; exact h3) (step_inv hi op)
    exact ⟨ch2, f1, by omega, by omega, by omega⟩

/-- The hypotheses of C04 hold for the example channel and three attempts of the client. -/
example : (channel (run exCfg (genesis exBank 0 (fun _ => 0)) exOps).1 1 2).isSome = true ∧
    Always exCfg (fun s' => s'.block ≤ 20 ∧ s'.erasOffline 2 = 0)
      (run exCfg (genesis exBank 0 (fun _ => 0)) exOps).1
      [.closeChannel 1 2, .closeExpired 1 [2], .addBalance 1 2 5] := by
  refine ⟨by decide, ?_⟩
  simp only [Always]
  decide

/-! ### C05 -/

/-- **C05**: if a claim leads to a payment event then the amount was covered and signed by the
client's key for exactly this server, nonce, session and amount, the session is the successor of
the last one, the channel was open and unexpired, and exactly the amount left that channel while
every other channel stayed as it was. -/
theorem C05_claim_pays_signed_amount (cfg : Config) (s : State) (srv c : AccId) (ses : BitVec 32)
    (a : Balance) (sig : List Nat) (c' srv' : AccId) (n' : Nat) (ses' : BitVec 32) (a' : Balance)
    (h : .claimPayment c' srv' n' ses' a' ∈ (step cfg s (.claim srv c ses a sig)).2) :
    c' = c ∧ srv' = srv ∧ ses' = ses ∧ a' = a ∧
    ∃ ch, channel s c srv = some ch ∧ n' = ch.nonce ∧ s.block ≤ ch.expiration ∧ a ≤ ch.balance ∧
      (∀ last, s.sessions.get (c, srv) = some last → ses = last + 1) ∧
      cfg.sigVerify (presented sig) (cfg.hash (voucher srv ch.nonce ses a)) (toBE 32 c) = true ∧
      (step cfg s (.claim srv c ses a sig)).1.sessions.get (c, srv) = some ses ∧
      (∀ x y, channel (step cfg s (.claim srv c ses a sig)).1 x y =
        if (x, y) = (c, srv) then some { ch with balance := ch.balance - a }
        else channel s x y) := by
  unfold step at h ⊢
  cases he : (body cfg s (.claim srv c ses a sig)).err with
  | some e => rw [he] at h; simp at h
  | none =>
    rw [he] at h
    simp only at h ⊢
    simp only [body] at he h ⊢
    obtain ⟨ch, h1, ⟨hx, h2⟩ | ⟨hx, hses, hsg, hle, b, -, h3, h4⟩⟩ := claimPayment_ok he
    · rw [h2] at he h
      obtain ⟨b, -, -, hev⟩ := refundAndClose_ok he
      rw [hev] at h; simp at h
    · rw [h4] at h
      simp only [List.mem_singleton, Event.claimPayment.injEq] at h
      obtain ⟨e1, e2, e3, e4, e5⟩ := h
      refine ⟨e1, e2, e4, e5, ch, h1, e3, by omega, hle, ?_, hsg, ?_, ?_⟩
      · intro last hl
        simp only [sessionOk, hl] at hses
        simpa using hses
      · rw [h3]; simp [lowerTotal]
      · intro x y
        rw [h3]
        simp only [channel, lowerTotal, FMap.get_insert]

/-- **C05** (money): the server receives the claimed amount minus the burn fee, which goes to the
treasury, when both accounts exist and differ. -/
theorem C05_claim_credits_server (cfg : Config) (s : State) (srv c : AccId) (ses : BitVec 32)
    (a : Balance) (sig : List Nat) (n : Nat) (hb : s.bank.Inv) (hne : srv ≠ cfg.treasury)
    (hs : s.bank.accts.contains srv = true) (ht : s.bank.accts.contains cfg.treasury = true)
    (h : .claimPayment c srv n ses a ∈ (step cfg s (.claim srv c ses a sig)).2) :
    let s' := (step cfg s (.claim srv c ses a sig)).1
    s'.bank.free srv + feeOf cfg a = s.bank.free srv + a ∧
      s'.bank.free cfg.treasury = s.bank.free cfg.treasury + feeOf cfg a := by
  unfold step at h ⊢
  cases he : (body cfg s (.claim srv c ses a sig)).err with
  | some e => rw [he] at h; simp at h
  | none =>
    rw [he] at h
    simp only at h ⊢
    simp only [body] at he h ⊢
    obtain ⟨ch, h1, ⟨hx, h2⟩ | ⟨hx, -, -, hle, b, hd, h3, h4⟩⟩ := claimPayment_ok he
    · rw [h2] at he h
      obtain ⟨b, -, -, hev⟩ := refundAndClose_ok he
      rw [hev] at h; simp at h
    · rw [h3]
      simp only
      exact depositInto_exact hb hd hne hs ht

example : .claimPayment 1 2 0 7 40 ∈ (step exCfg
    (run exCfg (genesis exBank 0 (fun _ => 0)) [.openChannel 1 2 500 100]).1
    (.claim 2 1 7 40 [])).2 := by decide

/-! ### C06 -/

/-- **C06 is false of the code**: a claim above the channel balance is always rejected without any
effect, because the error returned after paying and closing rolls the whole call back. The server
gets nothing, for every state and every such claim. -/
theorem C06_overclaim_has_no_effect (cfg : Config) (s : State) (srv c : AccId) (ses : BitVec 32)
    (a : Balance) (sig : List Nat) (ch : Chan) (hc : channel s c srv = some ch)
    (hexp : s.block ≤ ch.expiration) (ha : ch.balance < a) :
    step cfg s (.claim srv c ses a sig) = (s, []) := by
  unfold step
  cases he : (body cfg s (.claim srv c ses a sig)).err with
  | some e => rfl
  | none =>
    simp only [body] at he
    unfold channel at hc
    obtain ⟨ch', h1, ⟨hx, -⟩ | ⟨-, -, -, hle, -⟩⟩ := claimPayment_ok he
    · rw [hc] at h1; cases h1; omega
    · rw [hc] at h1; cases h1; omega

/-- **C06** (partial): before the roll-back, i.e. for a caller that does not run the call in a
storage transaction, the body of a correctly signed over-claim does pay the remaining channel
balance (minus fee) to the server and closes the channel. Missing: this effect does not survive
dispatch (`C06_overclaim_has_no_effect`). -/
theorem C06_overclaim_body_pays_rest_partial (cfg : Config) (s : State) (srv c : AccId)
    (ses : BitVec 32) (a : Balance) (sig : List Nat) (ch : Chan) (hc : channel s c srv = some ch)
    (hexp : s.block ≤ ch.expiration) (ha : ch.balance < a) (hs : sessionOk s c srv ses = true)
    (hsg : verifySignature cfg c srv ch.nonce ses a sig = true) (b : Bank)
    (hd : depositIntoAccount cfg s.bank srv ch.balance = .ok b) :
    (body cfg s (.claim srv c ses a sig)).err = some .notEnoughBalance ∧
    (body cfg s (.claim srv c ses a sig)).state.bank = b ∧
    channel (body cfg s (.claim srv c ses a sig)).state c srv = none := by
  unfold channel at *
  simp only [body, claimPayment, hc]
  rw [if_neg (by omega), if_neg (by simpa using hs), if_neg (by simpa using hsg), if_pos ha]
  have hbank : ∀ x, (lowerTotal { s with sessions := x } c ch.balance).bank = s.bank := fun _ => rfl
  rw [hbank, hd]
  simp [closeRaw]

example : ∃ ch, channel (run exCfg (genesis exBank 0 (fun _ => 0)) exOps).1 1 2 = some ch ∧
    ch.balance < 1000 ∧ 0 ≤ ch.expiration := by
  refine ⟨⟨1, 2, 520, 0, 0, 20⟩, by decide, by decide, by decide⟩

/-! ### C07 -/

/-- **C07**: different vouchers have different signed byte strings. -/
theorem C07_voucher_bytes_injective (srv srv' n n' a a' : Nat) (ses ses' : BitVec 32)
    (h1 : srv < 2 ^ 256) (h1' : srv' < 2 ^ 256) (h2 : n < 2 ^ 64) (h2' : n' < 2 ^ 64)
    (h3 : a < 2 ^ 128) (h3' : a' < 2 ^ 128)
    (h : voucher srv n ses a = voucher srv' n' ses' a') :
    srv = srv' ∧ n = n' ∧ ses = ses' ∧ a = a' := by
  unfold voucher at h
  obtain ⟨h, ha⟩ := List.append_inj h (by simp)
  obtain ⟨h, hs⟩ := List.append_inj h (by simp)
  obtain ⟨hx, hn⟩ := List.append_inj h (by simp)
  refine ⟨toBE_inj (by simpa using h1) (by simpa using h1') hx,
    toBE_inj (by simpa using h2) (by simpa using h2') hn, ?_,
    toLE_inj (by simpa using h3) (by simpa using h3') ha⟩
  have := toBE_inj (by have := ses.isLt; simpa using this) (by have := ses'.isLt; simpa using this) hs
  exact BitVec.eq_of_toNat_eq this

example : voucher 2 0 7 40 ≠ voucher 2 0 8 40 := by decide

/-! ### C56 -/

/-- **C56**: once a channel has expired, its client can close it (if they are not at the same time
server of the reverse channel, which `close_channel` would close first) and gets the whole channel
balance minus the fee, provided the account is alive and its locks are covered by its free
balance. -/
theorem C56_expired_channel_refund (cfg : Config) (s : State) (c srv : AccId) (ch : Chan)
    (hc : channel s c srv = some ch) (hrev : channel s srv c = none)
    (hexp : ch.expiration < s.block) (hb : s.bank.Inv) (hbp : cfg.burnPercent ≤ 100)
    (halive : s.bank.accts.contains c = true) (hed : s.bank.ed ≤ s.bank.free c)
    (hfr : s.bank.frozen c ≤ s.bank.free c) (hne : c ≠ cfg.treasury)
    (ht : s.bank.accts.contains cfg.treasury = true) :
    let s' := (step cfg s (.closeChannel c srv)).1
    channel s' c srv = none ∧
      s'.bank.free c + feeOf cfg ch.balance = s.bank.free c + ch.balance ∧
      s'.bank.free cfg.treasury = s.bank.free cfg.treasury + feeOf cfg ch.balance := by
  unfold channel at *
  obtain ⟨b, hd⟩ := depositInto_succeeds (cfg := cfg) (v := ch.balance) hb hbp halive hed hfr
  have hbank : (lowerTotal s c ch.balance).bank = s.bank := rfl
  have hbody : body cfg s (.closeChannel c srv)
      = ⟨closeRaw { lowerTotal s c ch.balance with bank := b } c srv, [.channelClosed c srv],
          none⟩ := by
    simp only [body, closeChannel, hrev, hc]
    rw [if_pos (Or.inl hexp)]
    unfold refundAndClose
    simp only [hbank, hd]
  unfold step
  rw [hbody]
  simp only [closeRaw, FMap.get_erase_self, true_and]
  exact depositInto_exact hb hd hne halive ht

example : let s := (run exCfg (genesis exBank 0 (fun _ => 0))
      [.openChannel 1 2 500 100, .external 30 (fun _ => 0)
        { exBank with accts := exBank.accts.insert 1 ⟨500, 0⟩ }]).1
    (channel s 1 2).isSome = true ∧ channel s 2 1 = none ∧ 20 < s.block := by decide

end Verif.Micropayment
