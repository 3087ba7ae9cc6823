import Verif.MicropaymentExit

/-
Property C146: a client never loses more in a channel than it has signed for. No new definitions of the code.
-/

namespace Verif.Micropayment

/-- Vouchers (session and amount) paid on a channel according to the events. -/
def paid (evs : List Event) (c srv : AccId) (n : Nat) : List (BitVec 32 × Balance) :=
  evs.filterMap (fun e => match e with
    | .claimPayment c' srv' n' ses a => if c' = c ∧ srv' = srv ∧ n' = n then some (ses, a) else none
    | _ => none)

/-- Amounts added to a channel according to the events. -/
def added (evs : List Event) (c srv : AccId) : List Balance :=
  evs.filterMap (fun e => match e with
    | .balanceAdded c' srv' a => if c' = c ∧ srv' = srv then some a else none
    | _ => none)

theorem paid_append (x y : List Event) (c srv : AccId) (n : Nat) : paid (x ++ y) c srv n = paid x c srv n ++ paid y c srv n :=
  List.filterMap_append
theorem added_append (x y : List Event) (c srv : AccId) : added (x ++ y) c srv = added x c srv ++ added y c srv :=
  List.filterMap_append

theorem paid_sessions (evs : List Event) (c srv : AccId) (n : Nat) : (paid evs c srv n).map (·.1) = paidSessions evs c srv n := by
  induction evs with
  | nil => rfl
  | cons e evs ih =>
    unfold paid paidSessions at *
    cases e with
    | claimPayment c' srv' n' ses a =>
      simp only [List.filterMap_cons]
      by_cases h : c' = c ∧ srv' = srv ∧ n' = n
      · simp only [if_pos h, List.map_cons, ih]
      · simp only [if_neg h, ih]
    | _ => simpa only [List.filterMap_cons] using ih

/-- Only closings. -/
def Closings (evs : List Event) : Prop := ∀ e ∈ evs, ∃ x y, e = .channelClosed x y

theorem closings_paid {evs : List Event} (h : Closings evs) (c srv : AccId) (n : Nat) : paid evs c srv n = [] ∧ added evs c srv = [] := by
  constructor <;>
  · refine List.filterMap_eq_nil_iff.2 fun e he => ?_
    obtain ⟨x, y, rfl⟩ := h e he
    rfl

theorem loop_closings (cfg : Config) (c : AccId) (o : List AccId) : ∀ s, (closeExpiredLoop cfg c o s).err = none →
    Closings (closeExpiredLoop cfg c o s).events := by
  induction o with
  | nil => intro s _ e he; cases he
  | cons srv rest ih =>
    intro s hok
    unfold closeExpiredLoop at hok ⊢
    cases hc : s.chans.get (c, srv) with
    | none => simp only [hc] at hok ⊢; exact ih s hok
    | some ch =>
      simp only [hc] at hok ⊢
      by_cases he : ch.expiration < s.block
      · simp only [he, if_true] at hok ⊢
        cases hr : (refundAndClose cfg s c srv ch).err with
        | some e => simp only [hr] at hok; cases hok
        | none =>
          simp only [hr] at hok ⊢
          obtain ⟨b, -, -, hev⟩ := refundAndClose_ok hr
          intro e hm
          rw [hev] at hm
          rcases List.mem_append.1 hm with h | h
          · exact ⟨c, srv, List.mem_singleton.1 h⟩
          · exact ih _ hok e h
      · simp only [he, if_false] at hok ⊢
        exact ih s hok

theorem close_maps {cfg : Config} {s : State} {c' srv' : AccId} {ch : Chan} (hr : (refundAndClose cfg s c' srv' ch).err = none) (c srv : AccId) :
    (refundAndClose cfg s c' srv' ch).state.chans.get (c, srv) = (if (c, srv) = (c', srv') then none else s.chans.get (c, srv)) ∧
    nonceOf (refundAndClose cfg s c' srv' ch).state c srv = (if (c, srv) = (c', srv') then nonceOf s c srv + 1 else nonceOf s c srv) := by
  obtain ⟨b, -, hst, -⟩ := refundAndClose_ok hr
  rw [hst]
  by_cases h : (c, srv) = (c', srv')
  · cases h
    simp only [closeRaw, lowerTotal, nonceOf, FMap.get_erase_self, FMap.get_insert_self, if_pos]
    exact ⟨trivial, rfl⟩
  · simp only [closeRaw, lowerTotal, nonceOf, if_neg h]
    rw [FMap.get_erase_ne _ h, FMap.get_insert_ne _ _ h]
    exact ⟨rfl, rfl⟩

/-- What one step does to a channel. -/
theorem chan_step {cfg : Config} {s : State} (hi : Inv s) {c srv : AccId} {ch : Chan} (hc : channel s c srv = some ch) (op : Op) :
    let r := step cfg s op
    (∃ ch', channel r.1 c srv = some ch' ∧ ch'.nonce = ch.nonce ∧ ch'.expiration = ch.expiration ∧
      ch'.balance + ((paid r.2 c srv ch.nonce).map (·.2)).sum = ch.balance + (added r.2 c srv).sum) ∨ ch.nonce < nonceOf r.1 c srv := by
  have hn := hi.nonce c srv ch hc
  unfold channel at *
  intro r
  have same : ∀ (s' : State) evs, s'.chans.get (c, srv) = some ch → paid evs c srv ch.nonce = [] ∧ added evs c srv = [] →
      (∃ ch', s'.chans.get (c, srv) = some ch' ∧ ch'.nonce = ch.nonce ∧ ch'.expiration = ch.expiration ∧
        ch'.balance + ((paid evs c srv ch.nonce).map (·.2)).sum = ch.balance + (added evs c srv).sum) ∨ ch.nonce < nonceOf s' c srv := by
    rintro s' evs h ⟨h1, h2⟩
    exact Or.inl ⟨ch, h, rfl, rfl, by rw [h1, h2]; rfl⟩
  have closed : ∀ c' srv' ch', (refundAndClose cfg s c' srv' ch').err = none →
      (∃ ch₂, (refundAndClose cfg s c' srv' ch').state.chans.get (c, srv) = some ch₂ ∧ ch₂.nonce = ch.nonce ∧ ch₂.expiration = ch.expiration ∧
        ch₂.balance + ((paid (refundAndClose cfg s c' srv' ch').events c srv ch.nonce).map (·.2)).sum =
          ch.balance + (added (refundAndClose cfg s c' srv' ch').events c srv).sum) ∨
        ch.nonce < nonceOf (refundAndClose cfg s c' srv' ch').state c srv := by
    intro c' srv' ch' hr
    obtain ⟨k1, k2⟩ := close_maps hr c srv
    obtain ⟨b, -, -, hev⟩ := refundAndClose_ok hr
    by_cases h : (c, srv) = (c', srv')
    · rw [if_pos h] at k2
      right; omega
    · rw [if_neg h] at k1
      refine same _ _ (by rw [k1]; exact hc) (closings_paid ?_ _ _ _)
      intro e he
      rw [hev] at he
      exact ⟨_, _, List.mem_singleton.1 he⟩
  simp only [r]
  unfold step
  cases he : (body cfg s op).err with
  | some e => exact same s [] hc ⟨rfl, rfl⟩
  | none =>
  simp only
  cases op with
  | openChannel c' srv' l d =>
    simp only [body] at he ⊢
    obtain ⟨b, h1, -, -, h3, h4⟩ := openChannel_ok he
    rw [h3, h4]
    refine same _ _ ?_ ⟨rfl, rfl⟩
    simp only [raiseTotal]
    rw [FMap.get_insert_ne]
    · exact hc
    · intro e; rw [e] at hc; rw [h1] at hc; cases hc
  | closeChannel sg a =>
    simp only [body] at he ⊢
    rcases closeChannel_ok he with ⟨ch', -, h2⟩ | ⟨ch', -, -, h2⟩
    · rw [h2] at he ⊢; exact closed _ _ _ he
    · rw [h2] at he ⊢; exact closed _ _ _ he
  | closeExpired c' o =>
    simp only [body] at he ⊢
    have heq := closeExpired_ok he
    rw [heq] at he ⊢
    have hev := closings_paid (loop_closings cfg c' o s he) c srv ch.nonce
    have := closeExpiredLoop_ind cfg c' (fun s' => s'.chans.get (c, srv) = some ch ∧ nonceOf s' c srv = ch.nonce ∨ ch.nonce < nonceOf s' c srv)
      ?_ o s (Or.inl ⟨hc, hn.symm⟩) he
    · rcases this with ⟨h, -⟩ | h
      · exact same _ _ h hev
      · exact Or.inr h
    · intro s' srv' ch' hp _ _ hr
      obtain ⟨k1, k2⟩ := close_maps hr c srv
      rw [k1, k2]
      split
      · right; omega
      · exact hp
  | addBalance c' srv' a =>
    simp only [body] at he ⊢
    obtain ⟨ch', b, h1, -, h3, h4⟩ := addBalance_ok he
    rw [h3, h4]
    by_cases hk : (c', srv') = (c, srv)
    · cases hk
      rw [hc] at h1; cases h1
      left
      refine ⟨{ ch with balance := ch.balance + a }, by simp [raiseTotal], rfl, rfl, ?_⟩
      simp [paid, added]
    · refine same _ _ ?_ ⟨rfl, ?_⟩
      · simp only [raiseTotal]
        rw [FMap.get_insert_ne _ _ (Ne.symm hk)]
        exact hc
      · simp only [added, List.filterMap_cons, List.filterMap_nil]
        rw [if_neg]
        rintro ⟨rfl, rfl⟩; exact hk rfl
  | claim srv' c' ses a sig =>
    simp only [body] at he ⊢
    obtain ⟨ch', h1, ⟨-, h2⟩ | ⟨-, -, -, hle, b, -, h3, h4⟩⟩ := claimPayment_ok he
    · rw [h2] at he ⊢; exact closed _ _ _ he
    · rw [h3, h4]
      by_cases hk : (c', srv') = (c, srv)
      · cases hk
        rw [hc] at h1; cases h1
        left
        refine ⟨{ ch with balance := ch.balance - a }, by simp [lowerTotal], rfl, rfl, ?_⟩
        simp [paid, added]
        omega
      · refine same _ _ ?_ ⟨?_, rfl⟩
        · simp only [lowerTotal]
          rw [FMap.get_insert_ne _ _ (Ne.symm hk)]
          exact hc
        · simp only [paid, List.filterMap_cons, List.filterMap_nil]
          rw [if_neg]
          rintro ⟨rfl, rfl, -⟩; exact hk rfl
  | external n e b => exact same _ _ hc ⟨rfl, rfl⟩

/-- The number of a channel never falls. -/
theorem nonce_mono {cfg : Config} (s : State) (op : Op) (c srv : AccId) : nonceOf s c srv ≤ nonceOf (step cfg s op).1 c srv := by
  have closed : ∀ (s' : State) c' srv' ch', (refundAndClose cfg s' c' srv' ch').err = none →
      nonceOf s' c srv ≤ nonceOf (refundAndClose cfg s' c' srv' ch').state c srv := by
    intro s' c' srv' ch' hr
    rw [(close_maps hr c srv).2]
    split <;> omega
  unfold step
  cases he : (body cfg s op).err with
  | some e => exact Nat.le_refl _
  | none =>
  simp only
  cases op with
  | openChannel c' srv' l d =>
    simp only [body] at he ⊢
    obtain ⟨b, -, -, -, h3, -⟩ := openChannel_ok he
    rw [h3]; exact Nat.le_refl _
  | closeChannel sg a =>
    simp only [body] at he ⊢
    rcases closeChannel_ok he with ⟨ch', -, h2⟩ | ⟨ch', -, -, h2⟩ <;>
    · rw [h2] at he ⊢; exact closed _ _ _ _ he
  | closeExpired c' o =>
    simp only [body] at he ⊢
    have heq := closeExpired_ok he
    rw [heq] at he ⊢
    exact closeExpiredLoop_ind cfg c' (fun s' => nonceOf s c srv ≤ nonceOf s' c srv)
      (fun s' _ _ hp _ _ hr => Nat.le_trans hp (closed s' _ _ _ hr)) o s (Nat.le_refl _) he
  | addBalance c' srv' a =>
    simp only [body] at he ⊢
    obtain ⟨ch', b, -, -, h3, -⟩ := addBalance_ok he
    rw [h3]; exact Nat.le_refl _
  | claim srv' c' ses a sig =>
    simp only [body] at he ⊢
    obtain ⟨ch', -, ⟨-, h2⟩ | ⟨-, -, -, -, b, -, h3, -⟩⟩ := claimPayment_ok he
    · rw [h2] at he ⊢; exact closed _ _ _ _ he
    · rw [h3]; exact Nat.le_refl _
  | external n e b => exact Nat.le_refl _

theorem nonce_mono_run {cfg : Config} (ops : List Op) (c srv : AccId) : ∀ s, nonceOf s c srv ≤ nonceOf (run cfg s ops).1 c srv := by
  induction ops with
  | nil => intro s; exact Nat.le_refl _
  | cons op ops ih => intro s; exact Nat.le_trans (nonce_mono s op c srv) (ih _)

/-- The balance of a channel over any history. -/
theorem chan_run {cfg : Config} (ops : List Op) (c srv : AccId) : ∀ (s : State) (ch : Chan), Inv s → channel s c srv = some ch →
    let r := run cfg s ops
    (∃ ch', channel r.1 c srv = some ch' ∧ ch'.nonce = ch.nonce ∧ ch'.expiration = ch.expiration ∧
      ch'.balance + ((paid r.2 c srv ch.nonce).map (·.2)).sum = ch.balance + (added r.2 c srv).sum) ∨ ch.nonce < nonceOf r.1 c srv := by
  induction ops with
  | nil => intro s ch _ hc; exact Or.inl ⟨ch, hc, rfl, rfl, rfl⟩
  | cons op ops ih =>
    intro s ch hi hc r
    have hr1 : r.1 = (run cfg (step cfg s op).1 ops).1 := rfl
    have hr2 : r.2 = (step cfg s op).2 ++ (run cfg (step cfg s op).1 ops).2 := rfl
    rw [hr1, hr2]
    rcases chan_step (cfg := cfg) hi hc op with ⟨ch1, h1, h2, h3, h4⟩ | h
    · rcases ih _ ch1 (step_inv hi op) h1 with ⟨ch2, k1, k2, k3, k4⟩ | k
      · left
        refine ⟨ch2, k1, k2.trans h2, k3.trans h3, ?_⟩
        rw [h2] at k4
        rw [paid_append, added_append, List.map_append, List.sum_append, List.sum_append]
        omega
      · right; rw [← h2]; exact k
    · right; exact Nat.lt_of_lt_of_le h (nonce_mono_run ops c srv _)

/-- C146: the money in a channel at any later time is what was there and what the client has added since, less the
vouchers paid on it: nothing else lowers it, whatever anybody does. -/
theorem C146_balance (cfg : Config) (s : State) (hr : Reachable cfg s) (c srv : AccId) (ch ch' : Chan) (ops : List Op)
    (hc : channel s c srv = some ch) (hc' : channel (run cfg s ops).1 c srv = some ch') (hn : ch'.nonce = ch.nonce) :
    ch'.balance + ((paid (run cfg s ops).2 c srv ch.nonce).map (·.2)).sum = ch.balance + (added (run cfg s ops).2 c srv).sum ∧
    ch'.expiration = ch.expiration := by
  have hi := reachable_inv hr
  rcases chan_run (cfg := cfg) ops c srv s ch hi hc with ⟨ch2, h1, h2, h3, h4⟩ | h
  · rw [hc'] at h1; cases h1
    exact ⟨h4, h3⟩
  · have := (run_inv (cfg := cfg) ops hi).nonce c srv ch' hc'
    omega

/-- Amounts of claims are 128-bit numbers. -/
def Typed : Op → Prop
  | .claim _ _ _ a _ => a < 2 ^ 128
  | _ => True

theorem paid_signed_step {cfg : Config} {s : State} {op : Op} (ht : Typed op) {c srv : AccId} {n : Nat} {v : BitVec 32 × Balance}
    (h : v ∈ paid (step cfg s op).2 c srv n) :
    v.2 < 2 ^ 128 ∧ ∃ sig, cfg.sigVerify (presented sig) (cfg.hash (voucher srv n v.1 v.2)) (toBE 32 c) = true := by
  obtain ⟨e, he, hv⟩ := List.mem_filterMap.1 h
  cases e with
  | claimPayment c' srv' n' ses a =>
    simp only at hv
    split at hv
    · rename_i hk
      obtain ⟨rfl, rfl, rfl⟩ := hk
      cases hv
      have hop : ∃ srv c ses a sig, op = .claim srv c ses a sig := by
        refine Classical.byContradiction fun hc => ?_
        unfold step at he
        cases hb : (body cfg s op).err with
        | some e => rw [hb] at he; cases he
        | none =>
        rw [hb] at he
        simp only at he
        cases op with
        | openChannel c' srv' l d =>
          simp only [body] at he hb
          obtain ⟨b, -, -, -, -, h4⟩ := openChannel_ok hb
          rw [h4] at he; simp at he
        | closeChannel sg a =>
          simp only [body] at he hb
          rcases closeChannel_ok hb with ⟨ch', -, h2⟩ | ⟨ch', -, -, h2⟩ <;>
          · rw [h2] at hb he
            obtain ⟨b, -, -, hev⟩ := refundAndClose_ok hb
            rw [hev] at he; simp at he
        | closeExpired c' o =>
          simp only [body] at he hb
          have heq := closeExpired_ok hb
          rw [heq] at he hb
          obtain ⟨x, y, hxy⟩ := loop_closings cfg c' o s hb _ he
          cases hxy
        | addBalance c' srv' a =>
          simp only [body] at he hb
          obtain ⟨ch', b, -, -, -, h4⟩ := addBalance_ok hb
          rw [h4] at he; simp at he
        | claim srv' c' ses a sig => exact hc ⟨_, _, _, _, _, rfl⟩
        | external n e b => simp [body] at he
      obtain ⟨srv₂, c₂, ses₂, a₂, sig, rfl⟩ := hop
      obtain ⟨rfl, rfl, rfl, rfl, ch, -, rfl, -, -, -, hs, -⟩ := C05_claim_pays_signed_amount cfg s _ _ _ _ _ _ _ _ _ _ he
      exact ⟨ht, sig, hs⟩
    · cases hv
  | _ => cases hv

theorem paid_signed {cfg : Config} (c srv : AccId) (n : Nat) (ops : List Op) : ∀ s, (∀ op ∈ ops, Typed op) →
    ∀ v ∈ paid (run cfg s ops).2 c srv n,
      v.2 < 2 ^ 128 ∧ ∃ sig, cfg.sigVerify (presented sig) (cfg.hash (voucher srv n v.1 v.2)) (toBE 32 c) = true := by
  induction ops with
  | nil => intro s _ v hv; cases hv
  | cons op ops ih =>
    intro s ht v hv
    have hr2 : (run cfg s (op :: ops)).2 = (step cfg s op).2 ++ (run cfg (step cfg s op).1 ops).2 := rfl
    rw [hr2, paid_append] at hv
    rcases List.mem_append.1 hv with h | h
    · exact paid_signed_step (ht op List.mem_cons_self) h
    · exact ih _ (fun o ho => ht o (List.mem_cons_of_mem _ ho)) v h

/-- `V` contains every voucher for this channel that the client has signed: no other passes the signature check. -/
def SignedOnly (cfg : Config) (c srv : AccId) (n : Nat) (V : List (BitVec 32 × Balance)) : Prop :=
  ∀ ses a sig, a < 2 ^ 128 → cfg.sigVerify (presented sig) (cfg.hash (voucher srv n ses a)) (toBE 32 c) = true → (ses, a) ∈ V

theorem paid_nodup (cfg : Config) (s : State) (hr : Reachable cfg s) (c srv : AccId) (n : Nat) (ops : List Op)
    (hlen : (paid (run cfg s ops).2 c srv n).length ≤ 2 ^ 32) : (paidSessions (run cfg s ops).2 c srv n).Nodup := by
  obtain ⟨b, k, e, ops0, rfl⟩ := hr
  have h0 := run_hist (cfg := cfg) ops0 (genesis_inv b k e) (genesis_hist b k e)
  have h1 := (run_hist (cfg := cfg) ops (run_inv (cfg := cfg) ops0 (genesis_inv b k e)) h0).chain c srv n
  rw [paidSessions_append] at h1
  have h2 := (List.isChain_append.1 h1).2.1
  rw [← paid_sessions] at h2 ⊢
  rw [List.nodup_iff_pairwise_ne, List.pairwise_iff_getElem]
  intro i j hi hj hij heq
  have h := chain_getElem _ h2 i j hi hj (by omega)
  rw [← heq] at h
  have hx := congrArg (fun x => x - ((paid (run cfg (run cfg (genesis b k e) ops0).1 ops).2 c srv n).map (·.1))[i]) h
  simp only [BitVec.sub_self] at hx
  rw [BitVec.add_comm, BitVec.add_sub_cancel] at hx
  have hy := congrArg BitVec.toNat hx
  rw [BitVec.toNat_ofNat, BitVec.toNat_ofNat] at hy
  rw [List.length_map] at hi hj
  rw [Nat.mod_eq_of_lt (show j - i < 2 ^ 32 by omega)] at hy
  omega

theorem sum_le_of_subset : ∀ (l V : List (BitVec 32 × Balance)), l.Nodup → (∀ v ∈ l, v ∈ V) → (l.map (·.2)).sum ≤ (V.map (·.2)).sum := by
  intro l
  induction l with
  | nil => intro V _ _; exact Nat.zero_le _
  | cons v l ih =>
    intro V hn hs
    obtain ⟨h1, h2⟩ := List.nodup_cons.1 hn
    have hp := List.perm_cons_erase (hs v List.mem_cons_self)
    have h3 := ih (V.erase v) h2 fun w hw =>
      (List.mem_erase_of_ne (fun e => h1 (by rw [← e]; exact hw))).2 (hs w (List.mem_cons_of_mem _ hw))
    have h4 := (hp.map (·.2)).sum_nat
    simp only [List.map_cons, List.sum_cons] at h4 ⊢
    omega

/-- C146: all that is paid out of a channel is at most the sum of the vouchers the client has signed for it. -/
theorem C146_signed (cfg : Config) (s : State) (hr : Reachable cfg s) (c srv : AccId) (n : Nat) (ops : List Op) (ht : ∀ op ∈ ops, Typed op)
    (V : List (BitVec 32 × Balance)) (hV : SignedOnly cfg c srv n V) (hlen : (paid (run cfg s ops).2 c srv n).length ≤ 2 ^ 32) :
    ((paid (run cfg s ops).2 c srv n).map (·.2)).sum ≤ (V.map (·.2)).sum := by
  refine sum_le_of_subset _ _ ?_ ?_
  · have := paid_nodup cfg s hr c srv n ops hlen
    rw [← paid_sessions] at this
    exact List.Nodup.of_map _ this
  · intro v hv
    obtain ⟨h1, sig, h2⟩ := paid_signed c srv n ops s ht v hv
    exact hV v.1 v.2 sig h1 h2

/-- Whenever a channel ends, its rest is on the account of the client, less the fee. -/
theorem refund_step {cfg : Config} {s : State} {c srv : AccId} {ch : Chan} (hc : channel s c srv = some ch) (op : Op)
    (hx : channel (step cfg s op).1 c srv = none) (hb : s.bank.Inv) (hp : cfg.burnPercent ≤ 100) (ha : s.bank.accts.contains c = true)
    (ht : s.bank.accts.contains cfg.treasury = true) (hne : c ≠ cfg.treasury) :
    s.bank.free c + ch.balance ≤ (step cfg s op).1.bank.free c + feeOf cfg ch.balance := by
  unfold channel at *
  have closed : ∀ (s' : State) c' srv' ch', (refundAndClose cfg s' c' srv' ch').err = none → s'.bank.Inv →
      s'.bank.accts.contains c = true → s'.bank.accts.contains cfg.treasury = true → c' = c →
      (refundAndClose cfg s' c' srv' ch').state.bank.Inv ∧ (refundAndClose cfg s' c' srv' ch').state.bank.accts.contains c = true ∧
      (refundAndClose cfg s' c' srv' ch').state.bank.accts.contains cfg.treasury = true ∧
      (refundAndClose cfg s' c' srv' ch').state.bank.free c + feeOf cfg ch'.balance = s'.bank.free c + ch'.balance := by
    rintro s' c' srv' ch' hr hb' ha' ht' rfl
    obtain ⟨b, hd, hst, -⟩ := refundAndClose_ok hr
    rw [hst]
    obtain ⟨d1, -, d3, -⟩ := depositInto_effect hb' hd
    exact ⟨d1, d3 _ ha', d3 _ ht', (depositInto_exact hb' hd hne ha' ht').1⟩
  have notSame : ∀ c' srv' ch', s.chans.get (c', srv') = some ch' → (refundAndClose cfg s c' srv' ch').err = none →
      (refundAndClose cfg s c' srv' ch').state.chans.get (c, srv) = none →
      s.bank.free c + ch.balance ≤ (refundAndClose cfg s c' srv' ch').state.bank.free c + feeOf cfg ch.balance := by
    intro c' srv' ch' h1 hr h2
    rw [(close_maps hr c srv).1] at h2
    split at h2
    · rename_i e
      cases e
      rw [hc] at h1; cases h1
      exact Nat.le_of_eq (closed s c srv ch hr hb ha ht rfl).2.2.2.symm
    · rw [hc] at h2; cases h2
  unfold step at hx ⊢
  cases he : (body cfg s op).err with
  | some e => rw [he] at hx; simp only at hx; rw [hc] at hx; cases hx
  | none =>
  rw [he] at hx
  simp only at hx ⊢
  cases op with
  | openChannel c' srv' l d =>
    simp only [body] at he hx ⊢
    obtain ⟨b, h1, -, -, h3, -⟩ := openChannel_ok he
    rw [h3] at hx
    simp only [raiseTotal] at hx
    rw [FMap.get_insert] at hx
    split at hx
    · cases hx
    · rw [hc] at hx; cases hx
  | closeChannel sg a =>
    simp only [body] at he hx ⊢
    rcases closeChannel_ok he with ⟨ch', h1, h2⟩ | ⟨ch', h1, -, h2⟩
    · rw [h2] at he hx ⊢; exact notSame _ _ _ h1 he hx
    · rw [h2] at he hx ⊢; exact notSame _ _ _ h1 he hx
  | closeExpired c' o =>
    simp only [body] at he hx ⊢
    have heq := closeExpired_ok he
    rw [heq] at he hx ⊢
    by_cases hcc : c' = c
    · subst hcc
      have := closeExpiredLoop_ind cfg c' (fun s' => s'.bank.Inv ∧ s'.bank.accts.contains c' = true ∧ s'.bank.accts.contains cfg.treasury = true ∧
          ((s'.chans.get (c', srv) = some ch ∧ s.bank.free c' ≤ s'.bank.free c') ∨
            s.bank.free c' + ch.balance ≤ s'.bank.free c' + feeOf cfg ch.balance)) ?_ o s
        ⟨hb, ha, ht, Or.inl ⟨hc, Nat.le_refl _⟩⟩ he
      · rcases this.2.2.2 with ⟨h, -⟩ | h
        · rw [hx] at h; cases h
        · exact h
      · rintro s' srv' ch' ⟨p1, p2, p3, p4⟩ h1 _ hr
        obtain ⟨q1, q2, q3, q4⟩ := closed s' _ _ _ hr p1 p2 p3 rfl
        refine ⟨q1, q2, q3, ?_⟩
        have hf := feeOf_le cfg hp ch'.balance
        rcases p4 with ⟨p4, p5⟩ | p4
        · rw [(close_maps hr c' srv).1]
          by_cases e : (c', srv) = (c', srv')
          · cases e
            rw [p4] at h1; cases h1
            right; omega
          · rw [if_neg e]
            left; exact ⟨p4, by omega⟩
        · right; omega
    · have := closeExpiredLoop_ind cfg c' (fun s' => s'.chans.get (c, srv) = some ch) ?_ o s hc he
      · rw [hx] at this; cases this
      · intro s' srv' ch' h1 _ _ hr
        rw [(close_maps hr c srv).1, if_neg]
        · exact h1
        · intro e; cases e; exact hcc rfl
  | addBalance c' srv' a =>
    simp only [body] at he hx ⊢
    obtain ⟨ch', b, -, -, h3, -⟩ := addBalance_ok he
    rw [h3] at hx
    simp only [raiseTotal] at hx
    rw [FMap.get_insert] at hx
    split at hx
    · cases hx
    · rw [hc] at hx; cases hx
  | claim srv' c' ses a sig =>
    simp only [body] at he hx ⊢
    obtain ⟨ch', h1, ⟨-, h2⟩ | ⟨-, -, -, -, b, -, h3, -⟩⟩ := claimPayment_ok he
    · rw [h2] at he hx ⊢; exact notSame _ _ _ h1 he hx
    · rw [h3] at hx
      simp only [lowerTotal] at hx
      rw [FMap.get_insert] at hx
      split at hx
      · cases hx
      · rw [hc] at hx; cases hx
  | external n e b => simp only [body] at hx; rw [hc] at hx; cases hx

/-- C146: whoever ends the channel and however: at that moment the client gets at least what was in the channel at first and
what it has added, less all vouchers it has signed, less the fee. -/
theorem C146_refund (cfg : Config) (hp : cfg.burnPercent ≤ 100) (s : State) (hr : Reachable cfg s) (c srv : AccId) (ch ch' : Chan)
    (ops : List Op) (ht : ∀ op ∈ ops, Typed op) (op : Op) (V : List (BitVec 32 × Balance))
    (hc : channel s c srv = some ch) (hV : SignedOnly cfg c srv ch.nonce V) :
    let r := run cfg s ops
    let z := (step cfg r.1 op).1
    (paid r.2 c srv ch.nonce).length ≤ 2 ^ 32 → channel r.1 c srv = some ch' → ch'.nonce = ch.nonce → channel z c srv = none →
    r.1.bank.Inv → r.1.bank.accts.contains c = true → r.1.bank.accts.contains cfg.treasury = true → c ≠ cfg.treasury →
    ∃ rest, ch.balance + (added r.2 c srv).sum ≤ rest + (V.map (·.2)).sum ∧
      r.1.bank.free c + rest ≤ z.bank.free c + divNearestDown (rest * cfg.burnPercent) 100 := by
  intro r z hlen hc' hn hz hb ha htr hne
  obtain ⟨h1, -⟩ := C146_balance cfg s hr c srv ch ch' ops hc hc' hn
  have h2 := C146_signed cfg s hr c srv ch.nonce ops ht V hV hlen
  refine ⟨ch'.balance, by rw [← h1]; exact Nat.add_le_add_left h2 _, ?_⟩
  exact refund_step hc' op hz hb hp ha htr hne

/-- C146: after the expiration the client can always have this done. -/
theorem C146_home (cfg : Config) (hp : cfg.burnPercent ≤ 100) (s : State) (hr : Reachable cfg s) (c srv : AccId) (ch ch' : Chan)
    (ops : List Op) (ht : ∀ op ∈ ops, Typed op) (V : List (BitVec 32 × Balance))
    (hc : channel s c srv = some ch) (hV : SignedOnly cfg c srv ch.nonce V) (order : List AccId) :
    let r := run cfg s ops
    let z := (step cfg r.1 (.closeExpired c order)).1
    (paid r.2 c srv ch.nonce).length ≤ 2 ^ 32 → channel r.1 c srv = some ch' → ch'.nonce = ch.nonce → ch.expiration < r.1.block →
    order.Perm (serversOf r.1 c) →
    r.1.bank.Inv → r.1.bank.accts.contains c = true → r.1.bank.accts.contains cfg.treasury = true → c ≠ cfg.treasury →
    r.1.bank.ed ≤ r.1.bank.free c → r.1.bank.frozen c ≤ r.1.bank.free c →
    channel z c srv = none ∧
    ∃ rest, ch.balance + (added r.2 c srv).sum ≤ rest + (V.map (·.2)).sum ∧
      r.1.bank.free c + rest ≤ z.bank.free c + divNearestDown (rest * cfg.burnPercent) 100 := by
  intro r z hlen hc' hn hexp hord hb ha htr hne hed hfr
  obtain ⟨-, h2⟩ := C146_balance cfg s hr c srv ch ch' ops hc hc' hn
  have hz : channel z c srv = none := by
    show channel (step cfg r.1 (.closeExpired c order)).1 c srv = none
    rw [C94_close_expired cfg r.1 c order hord hb hp ha hed hfr c srv, if_pos ⟨rfl, ch', hc', by omega⟩]
  exact ⟨hz, C146_refund cfg hp s hr c srv ch ch' ops ht _ V hc hV hlen hc' hn hz hb ha htr hne⟩

/-! ### Example -/

/-- Client 1 has signed two vouchers for its channel 0 with server 2. -/
def exSigned : Config := ⟨5, 10, 9, id, fun _ msg key => decide (key = toBE 32 1 ∧ (msg = voucher 2 0 7 40 ∨ msg = voucher 2 0 8 50))⟩

theorem exSigned_only : SignedOnly exSigned 1 2 0 [(7, 40), (8, 50)] := by
  intro ses a sig ha h
  have h' := (of_decide_eq_true h).2
  have inj : ∀ ses' a', a' < 2 ^ 128 → voucher 2 0 ses a = voucher 2 0 ses' a' → ses = ses' ∧ a = a' := by
    intro ses' a' ha' e
    have := C07_voucher_bytes_injective 2 2 0 0 a a' ses ses' (by decide) (by decide) (by decide) (by decide) ha ha' e
    exact ⟨this.2.2.1, this.2.2.2⟩
  rcases h' with h' | h'
  · obtain ⟨rfl, rfl⟩ := inj 7 40 (by decide) h'; simp
  · obtain ⟨rfl, rfl⟩ := inj 8 50 (by decide) h'; simp

def exFirst : State := (run exSigned (genesis exBank 0 (fun _ => 0)) [.openChannel 1 2 500 100]).1

/-- Server 2 cashes both vouchers, tries the first again, one with another amount and a forged one; client 1 adds 60. -/
def exLife : List Op :=
  [.claim 2 1 7 40 [], .claim 2 1 7 40 [], .addBalance 1 2 60, .claim 2 1 8 300 [], .claim 2 1 8 50 [], .claim 2 1 9 100 [],
   .external 30 (fun _ => 0) exBank]

/-- `C146_refund` (the server closes) and `C146_home` (the client closes) on this history: 470 is left of 560. -/
example : (∃ rest, 500 + 60 ≤ rest + 90 ∧ (run exSigned exFirst exLife).1.bank.free 1 + rest ≤
      (step exSigned (run exSigned exFirst exLife).1 (.closeChannel 2 1)).1.bank.free 1 + divNearestDown (rest * 10) 100) ∧
    channel (step exSigned (run exSigned exFirst exLife).1 (.closeExpired 1 [2])).1 1 2 = none ∧
    (paid (run exSigned exFirst exLife).2 1 2 0) = [(7, 40), (8, 50)] := by
  have hb : (run exSigned exFirst exLife).1.bank.Inv := exBank_inv
  have hr : Reachable exSigned exFirst := ⟨_, _, _, _, rfl⟩
  have ht : ∀ op ∈ exLife, Typed op := by
    intro op h
    simp only [exLife, List.mem_cons, List.not_mem_nil, or_false] at h
    rcases h with rfl | rfl | rfl | rfl | rfl | rfl | rfl <;> simp [Typed]
  have k1 := C146_refund exSigned (by decide) exFirst hr 1 2 ⟨1, 2, 500, 0, 0, 20⟩ ⟨1, 2, 470, 0, 0, 20⟩ exLife ht (.closeChannel 2 1)
    _ (by decide +kernel) exSigned_only (by decide +kernel) (by decide +kernel) rfl (by decide +kernel) hb (by decide +kernel) (by decide +kernel) (by decide)
  have k2 := C146_home exSigned (by decide) exFirst hr 1 2 ⟨1, 2, 500, 0, 0, 20⟩ ⟨1, 2, 470, 0, 0, 20⟩ exLife ht
    _ (by decide +kernel) exSigned_only [2] (by decide +kernel) (by decide +kernel) rfl (by decide +kernel) (by decide +kernel) hb (by decide +kernel) (by decide +kernel) (by decide)
    (by decide +kernel) (by decide +kernel)
  refine ⟨?_, k2.1, by decide +kernel⟩
  obtain ⟨rest, r1, r2⟩ := k1
  refine ⟨rest, ?_, r2⟩
  have e : (added (run exSigned exFirst exLife).2 1 2).sum = 60 := by decide +kernel
  rw [e] at r1
  exact r1

end Verif.Micropayment
