import Verif.ExitAll
import Verif.DeeperNodeExpiry

/-
Property C144: a server is paid all vouchers it holds, whatever everybody else does meanwhile. No new definitions of the
code.
-/

namespace Verif.Vouchers

/-! ### One channel in the pallet -/

/-- The two calls by which a server disposes of its channel. -/
def own (c srv : AccId) : Micropayment.Op → Prop
  | .closeChannel sg a => sg = srv ∧ a = c
  | .claim s a _ _ _ => s = srv ∧ a = c
  | _ => False

section Pallet
open Micropayment

theorem kept_step {cfg : Config} {s : State} (hi : Inv s) {c srv : AccId} {ch : Chan}
    (hc : channel s c srv = some ch) (hexp : s.block ≤ ch.expiration)
    (hoff : s.erasOffline srv = 0) (op : Op) (hown : ¬ own c srv op) :
    (∃ ch', channel (step cfg s op).1 c srv = some ch' ∧ ch.balance ≤ ch'.balance ∧
      ch'.nonce = ch.nonce ∧ ch'.expiration = ch.expiration) ∧
    (step cfg s op).1.sessions.get (c, srv) = s.sessions.get (c, srv) := by
  unfold channel at *
  have same : ∀ s' : State, s'.chans.get (c, srv) = some ch → s'.sessions.get (c, srv) = s.sessions.get (c, srv) →
      (∃ ch', s'.chans.get (c, srv) = some ch' ∧ ch.balance ≤ ch'.balance ∧
        ch'.nonce = ch.nonce ∧ ch'.expiration = ch.expiration) ∧ s'.sessions.get (c, srv) = s.sessions.get (c, srv) :=
    fun s' h h' => ⟨⟨ch, h, Nat.le_refl _, rfl, rfl⟩, h'⟩
  unfold step
  cases he : (body cfg s op).err with
  | some e => exact same s hc rfl
  | none =>
  simp only
  have closeOther : ∀ (s' : State) c' srv' ch', (c', srv') ≠ (c, srv) →
      (refundAndClose cfg s' c' srv' ch').err = none →
      (refundAndClose cfg s' c' srv' ch').state.chans.get (c, srv) = s'.chans.get (c, srv) ∧
      (refundAndClose cfg s' c' srv' ch').state.sessions.get (c, srv) = s'.sessions.get (c, srv) := by
    intro s' c' srv' ch' hne hr
    obtain ⟨b, -, hst, -⟩ := refundAndClose_ok hr
    rw [hst]
    simp only [closeRaw, lowerTotal]
    rw [FMap.get_erase_ne _ (Ne.symm hne), FMap.get_erase_ne _ (Ne.symm hne)]
    exact ⟨rfl, rfl⟩
  cases op with
  | openChannel c' srv' l d =>
    simp only [body] at he ⊢
    obtain ⟨b, h1, -, -, h3, -⟩ := openChannel_ok he
    rw [h3]
    refine same _ ?_ rfl
    simp only [raiseTotal]
    rw [FMap.get_insert_ne]
    · exact hc
    · intro e; rw [e] at hc; rw [h1] at hc; cases hc
  | closeChannel sg a =>
    simp only [body] at he ⊢
    rcases closeChannel_ok he with ⟨ch', h1, h2⟩ | ⟨ch', h1, hcond, h2⟩
    · rw [h2] at he ⊢
      have hne : (a, sg) ≠ (c, srv) := by intro e; cases e; exact hown ⟨rfl, rfl⟩
      obtain ⟨k1, k2⟩ := closeOther s _ _ _ hne he
      exact same _ (by rw [k1]; exact hc) k2
    · rw [h2] at he ⊢
      have hne : (sg, a) ≠ (c, srv) := by
        intro e; cases e
        rw [hc] at h1; cases h1
        have hsv := hi.server _ _ _ hc
        rw [hsv] at hcond
        omega
      obtain ⟨k1, k2⟩ := closeOther s _ _ _ hne he
      exact same _ (by rw [k1]; exact hc) k2
  | closeExpired c' o =>
    simp only [body] at he ⊢
    have heq := closeExpired_ok he
    rw [heq] at he ⊢
    have := closeExpiredLoop_ind cfg c'
      (fun s' => s'.chans.get (c, srv) = some ch ∧ s'.block = s.block ∧ s'.sessions.get (c, srv) = s.sessions.get (c, srv)) ?_ o s
      ⟨hc, rfl, rfl⟩ he
    · exact same _ this.1 this.2.2
    · rintro s' srv' ch' ⟨p1, p2, p3⟩ h1 hx hr
      have hne : (c', srv') ≠ (c, srv) := by
        intro e; cases e
        rw [p1] at h1; cases h1
        omega
      obtain ⟨k1, k2⟩ := closeOther s' _ _ _ hne hr
      refine ⟨by rw [k1]; exact p1, ?_, by rw [k2]; exact p3⟩
      obtain ⟨b, -, hst, -⟩ := refundAndClose_ok hr
      rw [hst]; exact p2
  | addBalance c' srv' a =>
    simp only [body] at he ⊢
    obtain ⟨ch', b, h1, -, h3, -⟩ := addBalance_ok he
    rw [h3]
    simp only [raiseTotal]
    by_cases hk : (c', srv') = (c, srv)
    · cases hk
      rw [hc] at h1; cases h1
      exact ⟨⟨{ ch with balance := ch.balance + a }, by simp, by simp, rfl, rfl⟩, trivial⟩
    · rw [FMap.get_insert_ne _ _ (Ne.symm hk)]
      exact ⟨(same s hc rfl).1, trivial⟩
  | claim srv' c' ses a sig =>
    simp only [body] at he ⊢
    have hne : (c', srv') ≠ (c, srv) := by intro e; cases e; exact hown ⟨rfl, rfl⟩
    obtain ⟨ch', h1, ⟨-, h2⟩ | ⟨-, -, -, -, b, -, h3, -⟩⟩ := claimPayment_ok he
    · rw [h2] at he ⊢
      obtain ⟨k1, k2⟩ := closeOther s _ _ _ hne he
      exact same _ (by rw [k1]; exact hc) k2
    · rw [h3]
      refine same _ ?_ ?_
      · simp only [lowerTotal]
        rw [FMap.get_insert_ne _ _ (Ne.symm hne)]; exact hc
      · simp only [lowerTotal]
        rw [FMap.get_insert_ne _ _ (Ne.symm hne)]
  | external n e b => exact same _ hc rfl

/-- Channel and session counter after a claim. -/
def claimed (s : State) (c srv : AccId) (ch : Chan) (ses : BitVec 32) (a : Balance) : State :=
  { s with
    sessions := s.sessions.insert (c, srv) ses
    chans := s.chans.insert (c, srv) { ch with balance := ch.balance - a } }

/-- A claim which goes through. -/
theorem claim_step {cfg : Config} {s : State} {c srv : AccId} {ch : Chan} {ses : BitVec 32} {a : Balance} {sig : List Nat}
    (hp : cfg.burnPercent ≤ 100) (hc : channel s c srv = some ch) (hexp : s.block ≤ ch.expiration)
    (hses : ∀ last, s.sessions.get (c, srv) = some last → ses = last + 1)
    (hsig : cfg.sigVerify (normSig sig) (cfg.hash (voucherBytes srv ch.nonce ses a)) (toBE 32 c) = true)
    (hle : a ≤ ch.balance) (hb : s.bank.Inv) (ha : s.bank.accts.contains srv = true) (hed : s.bank.ed ≤ s.bank.free srv)
    (hfr : s.bank.frozen srv ≤ s.bank.free srv) (hne : srv ≠ cfg.treasury) (ht : s.bank.accts.contains cfg.treasury = true) :
    let s' := (step cfg s (.claim srv c ses a sig)).1
    .claimPayment c srv ch.nonce ses a ∈ (step cfg s (.claim srv c ses a sig)).2 ∧
    s'.bank.free srv + feeOf cfg a = s.bank.free srv + a ∧
    channel s' c srv = some { ch with balance := ch.balance - a } ∧ s'.sessions.get (c, srv) = some ses := by
  intro s'
  have hok : sessionOk s c srv ses = true := by
    unfold sessionOk
    obtain h | ⟨x, h⟩ : s.sessions.get (c, srv) = none ∨ ∃ x, s.sessions.get (c, srv) = some x := by
      cases s.sessions.get (c, srv) <;> simp
    · rw [h]
    · rw [h]; exact decide_eq_true (hses x h)
  obtain ⟨b, hd⟩ := depositInto_succeeds (cfg := cfg) (v := a) hb hp ha hed hfr
  have hev : step cfg s (.claim srv c ses a sig) =
      ({ lowerTotal (claimed s c srv ch ses a) c a with bank := b }, [.claimPayment c srv ch.nonce ses a]) := by
    unfold channel at hc
    have hbody : body cfg s (.claim srv c ses a sig) =
        ⟨{ lowerTotal (claimed s c srv ch ses a) c a with bank := b }, [.claimPayment c srv ch.nonce ses a], none⟩ := by
      simp only [body, claimPayment, hc]
      rw [if_neg (by omega), if_neg (by simp [hok]), if_neg (by unfold verifySignature; rw [hsig]; simp), if_neg (by omega)]
      simp only [claimed, lowerTotal] at hd ⊢
      rw [hd]
      rfl
    simp only [step, hbody]
  have e := depositInto_exact hb hd hne ha ht
  refine ⟨by rw [hev]; exact List.mem_singleton.2 rfl, ?_, ?_, ?_⟩
  · show s'.bank.free srv + _ = _
    have : s'.bank = b := by show (step cfg s _).1.bank = b; rw [hev]
    rw [this]; exact e.1
  · show channel (step cfg s _).1 c srv = _
    rw [hev]
    simp only [channel, claimed, lowerTotal, FMap.get_insert_self]
  · show (step cfg s _).1.sessions.get (c, srv) = _
    rw [hev]
    simp only [claimed, lowerTotal, FMap.get_insert_self]

theorem bank_inv {s : State} (h : Inv s) (b : Bank) : Inv { s with bank := b } :=
  (run_inv (cfg := ⟨1, 0, 0, id, fun _ _ _ => true⟩) [.external 0 s.erasOffline b] h)

end Pallet

open Chain ExitAll

/-! ### On the chain -/

theorem micro_kept (cfg : Cfg) (d : State) (op : Op) (h : ∀ o, op ≠ .world (.micro o)) : (step cfg d op).w.micro = d.w.micro := by
  cases op with
  | world w =>
    cases w with
    | micro o => exact (h o rfl).elim
    | ledger o => simp only [step]; split <;> rfl
    | hold a v => simp only [step, worldOwn, if_true, World.step, World.effect]; split <;> rfl
    | release a v => simp only [step, worldOwn, if_true, World.step, World.effect]; split <;> rfl
    | unlockStake r a => simp only [step, worldOwn, if_true, World.step, World.effect]; split <;> rfl
    | unlockVote r a => simp only [step, worldOwn, if_true, World.step, World.effect]; split <;> rfl
    | unlockMove r x y v => simp only [step, worldOwn, if_true, World.step, World.effect]; split <;> rfl
    | _ => rfl
  | bond o n => simp only [step]; split <;> rfl
  | dele o => simp only [step]; split <;> rfl
  | stake o => rfl
  | credit o => simp only [step]; split <;> rfl
  | slash o => simp only [step]; split <;> rfl
  | adsc o => simp only [step]; split <;> rfl

theorem micro_did (cfg : Cfg) (d : State) (o : Micropayment.Op) :
    (step cfg d (.world (.micro o))).w.micro = (Micropayment.step cfg.world.micro { d.w.micro with bank := d.w.bank } o).1 := rfl

/-- The server itself closes the channel or claims on it. -/
def disposes (c srv : AccId) : Op → Prop
  | .world (.micro o) => own c srv o
  | _ => False

/-- A call of the micropayment pallet, by anybody. -/
def pays : Op → Prop
  | .world (.micro o) => isMicroCall o = true
  | _ => False

/-- Whenever somebody calls the micropayment pallet block `e` has not passed and the server is online. -/
def Live (cfg : Cfg) (srv : AccId) (e : Nat) : State → List Op → Prop
  | _, [] => True
  | d, op :: ops => (pays op → d.w.micro.block ≤ e ∧ d.w.micro.erasOffline srv = 0) ∧ Live cfg srv e (step cfg d op) ops

/-- There is an open channel with at least the given balance, on which `ses` is accepted next. -/
structure Ready (d : State) (c srv : AccId) (n e : Nat) (v : Balance) (ses : BitVec 32) : Prop where
  chan : ∃ ch, d.w.micro.chans.get (c, srv) = some ch ∧ v ≤ ch.balance ∧ ch.nonce = n ∧ ch.expiration = e
  next : ∀ last, d.w.micro.sessions.get (c, srv) = some last → ses = last + 1

theorem ready_step (cfg : Cfg) {d : State} (hi : Micropayment.Inv d.w.micro) {c srv : AccId} {n e : Nat} {v : Balance} {ses : BitVec 32}
    (h : Ready d c srv n e v ses) (op : Op) (hl : pays op → d.w.micro.block ≤ e ∧ d.w.micro.erasOffline srv = 0) (hop : ¬ disposes c srv op) :
    Ready (step cfg d op) c srv n e v ses := by
  by_cases hm : ∃ o, op = .world (.micro o)
  · obtain ⟨o, rfl⟩ := hm
    obtain ⟨ch, h1, h2, h3, h4⟩ := h.chan
    by_cases hc : isMicroCall o = true
    swap
    · cases o with
      | external m f b => exact ⟨h.chan, h.next⟩
      | _ => exact (hc rfl).elim
    obtain ⟨hb, ho⟩ := hl hc
    obtain ⟨⟨ch', k1, k2, k3, k4⟩, k5⟩ := kept_step (cfg := cfg.world.micro) (bank_inv hi d.w.bank) (c := c) (srv := srv) (ch := ch) h1
      (by show d.w.micro.block ≤ _; omega) ho o hop
    refine ⟨⟨ch', k1, by omega, by omega, by omega⟩, fun last hl => h.next last ?_⟩
    rw [micro_did, k5] at hl
    exact hl
  · have := micro_kept cfg d op fun o he => hm ⟨o, he⟩
    exact ⟨by rw [this]; exact h.chan, by rw [this]; exact h.next⟩

theorem minv_step (cfg : Cfg) {d : State} (hi : Micropayment.Inv d.w.micro) (op : Op) : Micropayment.Inv (step cfg d op).w.micro := by
  by_cases hm : ∃ o, op = .world (.micro o)
  · obtain ⟨o, rfl⟩ := hm
    exact Micropayment.step_inv (bank_inv hi d.w.bank) o
  · rw [micro_kept cfg d op fun o he => hm ⟨o, he⟩]
    exact hi

theorem minv_run (cfg : Cfg) (ops : List Op) : ∀ d, Micropayment.Inv d.w.micro → Micropayment.Inv (run cfg d ops).w.micro := by
  induction ops with
  | nil => intro d h; exact h
  | cons op ops ih => intro d h; exact ih _ (minv_step cfg h op)

theorem ready_run (cfg : Cfg) {c srv : AccId} {n e : Nat} {v : Balance} {ses : BitVec 32} (ops : List Op) :
    ∀ d, Micropayment.Inv d.w.micro → Ready d c srv n e v ses → Live cfg srv e d ops → (∀ op ∈ ops, ¬ disposes c srv op) →
      Ready (run cfg d ops) c srv n e v ses := by
  induction ops with
  | nil => intro d _ h _ _; exact h
  | cons op ops ih =>
    intro d hi h hl ho
    exact ih _ (minv_step cfg hi op) (ready_step cfg hi h op hl.1 (ho op List.mem_cons_self)) hl.2
      fun o h => ho o (List.mem_cons_of_mem _ h)

theorem alive {b : Bank} (hb : Solid b) {x : AccId} (hx : 0 < b.total x) : b.accts.contains x = true ∧ b.ed ≤ b.free x := by
  obtain h | ⟨z, h⟩ : b.accts.get x = none ∨ ∃ z, b.accts.get x = some z := by cases b.accts.get x <;> simp
  · simp only [Bank.total, Bank.free, Bank.reserved, Bank.acct, h] at hx
    exact absurd hx (by decide)
  · have := hb x z h
    refine ⟨by rw [FMap.contains, h]; rfl, ?_⟩
    simp only [Bank.free, Bank.acct, h]
    exact this

/-- The claim of a voucher. -/
abbrev claimOp (c srv : AccId) (ses : BitVec 32) (a : Balance) (sig : List Nat) : Op := .world (.micro (.claim srv c ses a sig))

/-- The vouchers are valid: signed by the client for this server, this nonce, consecutive sessions and the amounts. -/
def Signed (cfg : Cfg) (c srv : AccId) (n : Nat) : BitVec 32 → List (List Op × Balance × List Nat) → Prop
  | _, [] => True
  | ses, (_, a, sig) :: rest =>
    cfg.world.micro.sigVerify (Micropayment.presented sig) (cfg.world.micro.hash (Micropayment.voucher srv n ses a)) (toBE 32 c) = true ∧
    Signed cfg c srv n (ses + 1) rest

/-- What happens before each of the claims: any steps of anybody, as long as the channel has not expired, the server stays
online and does not itself dispose of the channel; when it claims its account and the treasury exist, and its locks do not
exceed its balance. -/
def Meanwhile (cfg : Cfg) (c srv : AccId) (e : Nat) : State → BitVec 32 → List (List Op × Balance × List Nat) → Prop
  | _, _, [] => True
  | d, ses, (others, a, sig) :: rest =>
    let x := run cfg d others
    (∀ op ∈ others, ¬ disposes c srv op) ∧ Live cfg srv e d others ∧ x.w.micro.block ≤ e ∧ 0 < x.w.bank.total srv ∧
    0 < x.w.bank.total cfg.world.micro.treasury ∧ x.w.bank.frozen srv ≤ x.w.bank.free srv ∧
    Meanwhile cfg c srv e (step cfg x (claimOp c srv ses a sig)) (ses + 1) rest

/-- Each of the claims puts its amount, less the fee, on the account of the server. -/
def Paid (cfg : Cfg) (c srv : AccId) : State → BitVec 32 → List (List Op × Balance × List Nat) → Prop
  | _, _, [] => True
  | d, ses, (others, a, sig) :: rest =>
    let x := run cfg d others
    let y := step cfg x (claimOp c srv ses a sig)
    y.w.bank.free srv + divNearestDown (a * cfg.world.micro.burnPercent) 100 = x.w.bank.free srv + a ∧ Paid cfg c srv y (ses + 1) rest

/-- The state after all the claims. -/
def cashed (cfg : Cfg) (c srv : AccId) : State → BitVec 32 → List (List Op × Balance × List Nat) → State
  | d, _, [] => d
  | d, ses, (others, a, sig) :: rest => cashed cfg c srv (step cfg (run cfg d others) (claimOp c srv ses a sig)) (ses + 1) rest

theorem paid (cfg : Cfg) (hp : cfg.world.micro.burnPercent ≤ 100)
    (hinj : ∀ a b c d, cfg.world.tips.hashOf a b = cfg.world.tips.hashOf c d → a = c ∧ b = d) (c srv : AccId)
    (hne : srv ≠ cfg.world.micro.treasury) (n e : Nat) (vs : List (List Op × Balance × List Nat)) :
    ∀ (d : State) (ses : BitVec 32) (v : Balance), Sound cfg d → Micropayment.Inv d.w.micro → Ready d c srv n e v ses →
      (vs.map fun x => x.2.1).sum ≤ v → Signed cfg c srv n ses vs → Meanwhile cfg c srv e d ses vs →
      Paid cfg c srv d ses vs ∧ Ready (cashed cfg c srv d ses vs) c srv n e (v - (vs.map fun x => x.2.1).sum) (ses + BitVec.ofNat 32 vs.length) := by
  induction vs with
  | nil =>
    intro d ses v _ _ h _ _ _
    refine ⟨trivial, ?_⟩
    simpa [cashed] using h
  | cons w rest ih =>
    obtain ⟨others, a, sig⟩ := w
    intro d ses v hs hi hr hsum hsig hm
    simp only [List.map_cons, List.sum_cons] at hsum
    obtain ⟨g1, g2⟩ := hsig
    obtain ⟨m1, m2, m3, m4, m5, m6, m7⟩ := hm
    have hx := sound_run cfg hp hinj others d hs
    have ix := minv_run cfg others d hi
    have rx := ready_run cfg others d hi hr m2 m1
    generalize hxd : run cfg d others = x at hx ix rx m3 m4 m5 m6 m7
    obtain ⟨ch, h1, h2, h3, h4⟩ := rx.chan
    have a1 := alive hx.solid m4
    have a2 := alive hx.solid m5
    obtain ⟨-, k2, k3, k4⟩ := claim_step (cfg := cfg.world.micro) (s := { x.w.micro with bank := x.w.bank }) (c := c) (srv := srv) (ch := ch)
      (ses := ses) (a := a) (sig := sig) hp h1 (by show x.w.micro.block ≤ _; omega) rx.next (by rw [h3]; exact g1) (by omega) hx.books a1.1 a1.2 m6 hne a2.1
    have hy := sound_run cfg hp hinj [claimOp c srv ses a sig] x hx
    have iy := minv_step cfg ix (claimOp c srv ses a sig)
    have hfree : (step cfg x (claimOp c srv ses a sig)).w.bank.free srv =
        (Micropayment.step cfg.world.micro { x.w.micro with bank := x.w.bank } (.claim srv c ses a sig)).1.bank.free srv := rfl
    have ry : Ready (step cfg x (claimOp c srv ses a sig)) c srv n e (v - a) (ses + 1) := by
      refine ⟨⟨_, k3, by show v - a ≤ ch.balance - a; omega, h3, h4⟩, fun last hl => ?_⟩
      rw [micro_did, k4] at hl
      cases hl; rfl
    obtain ⟨p1, p2⟩ := ih _ _ _ hy iy ry (by omega) g2 m7
    refine ⟨?_, ?_⟩
    · show _ ∧ _
      rw [hxd]
      exact ⟨by rw [hfree]; exact k2, p1⟩
    · show Ready (cashed cfg c srv (step cfg (run cfg d others) (claimOp c srv ses a sig)) (ses + 1) rest) c srv n e _ _
      rw [hxd]
      have e1 : v - a - (rest.map fun x => x.2.1).sum = v - (((others, a, sig) :: rest).map fun x => x.2.1).sum := by
        simp only [List.map_cons, List.sum_cons]; omega
      have e2 : ses + 1 + BitVec.ofNat 32 rest.length = ses + BitVec.ofNat 32 ((others, a, sig) :: rest).length := by
        rw [List.length_cons, BitVec.ofNat_add, BitVec.add_assoc, BitVec.add_comm 1]; rfl
      rw [← e1, ← e2]
      exact p2

/-- C144. After any history of the chain, a server which holds vouchers of a client for the next sessions of their channel,
altogether for at most what the channel holds, is paid every one of them: whatever the client and everybody else do before
and between the claims, as long as the channel has not expired and the server stays online. After that the channel is
still open, with at least the rest, and takes the session after the last. -/
theorem C144_paid (cfg : Cfg) (hp : cfg.world.micro.burnPercent ≤ 100)
    (hinj : ∀ a b c d, cfg.world.tips.hashOf a b = cfg.world.tips.hashOf c d → a = c ∧ b = d)
    {c0 : State} (g : World.Genesis cfg.world c0.w) (s : World.Start c0.w) (hb : Solid c0.w.bank)
    (hm : ∃ b k o, c0.w.micro = Micropayment.genesis b k o) (ops : List Op)
    (c srv : AccId) (hne : srv ≠ cfg.world.micro.treasury) (ch : Micropayment.Chan) (ses : BitVec 32)
    (vs : List (List Op × Balance × List Nat)) :
    let d := run cfg c0 ops
    d.w.micro.chans.get (c, srv) = some ch → (∀ last, d.w.micro.sessions.get (c, srv) = some last → ses = last + 1) →
    (vs.map fun x => x.2.1).sum ≤ ch.balance → Signed cfg c srv ch.nonce ses vs → Meanwhile cfg c srv ch.expiration d ses vs →
    Paid cfg c srv d ses vs ∧
    let d' := cashed cfg c srv d ses vs
    (∃ ch', d'.w.micro.chans.get (c, srv) = some ch' ∧ ch.balance ≤ ch'.balance + (vs.map fun x => x.2.1).sum ∧ ch'.nonce = ch.nonce ∧
      ch'.expiration = ch.expiration) ∧
    ∀ last, d'.w.micro.sessions.get (c, srv) = some last → last + 1 = ses + BitVec.ofNat 32 vs.length := by
  intro d hc hses hsum hsig hmw
  have hi : Micropayment.Inv c0.w.micro := by obtain ⟨b, k, o, e⟩ := hm; rw [e]; exact Micropayment.genesis_inv b k o
  obtain ⟨p1, p2⟩ := paid cfg hp hinj c srv hne ch.nonce ch.expiration vs d ses ch.balance (sound_run cfg hp hinj ops c0 (sound_start g s hb))
    (minv_run cfg ops c0 hi) ⟨⟨ch, hc, Nat.le_refl _, rfl, rfl⟩, hses⟩ hsum hsig hmw
  refine ⟨p1, ?_, fun last hl => (p2.next last hl).symm⟩
  obtain ⟨ch', h1, h2, h3, h4⟩ := p2.chan
  exact ⟨ch', h1, by omega, h3, h4⟩


/-! ### Heartbeats -/

theorem node_kept (cfg : Cfg) (d : State) (op : Op) (h : ∀ o, op ≠ .world (.node o)) : (step cfg d op).w.node = d.w.node := by
  cases op with
  | world w =>
    cases w with
    | node o => exact (h o rfl).elim
    | ledger o => simp only [step]; split <;> rfl
    | hold a v => simp only [step, worldOwn, if_true, World.step, World.effect]; split <;> rfl
    | release a v => simp only [step, worldOwn, if_true, World.step, World.effect]; split <;> rfl
    | unlockStake r a => simp only [step, worldOwn, if_true, World.step, World.effect]; split <;> rfl
    | unlockVote r a => simp only [step, worldOwn, if_true, World.step, World.effect]; split <;> rfl
    | unlockMove r x y v => simp only [step, worldOwn, if_true, World.step, World.effect]; split <;> rfl
    | _ => rfl
  | bond o n => simp only [step]; split <;> rfl
  | dele o => simp only [step]; split <;> rfl
  | stake o => rfl
  | credit o => simp only [step]; split <;> rfl
  | slash o => simp only [step]; split <;> rfl
  | adsc o => simp only [step]; split <;> rfl

theorem node_did (cfg : Cfg) (d : State) (o : DeeperNode.Op) :
    (step cfg d (.world (.node o))).w.node = (DeeperNode.step cfg.world.node { d.w.node with bank := d.w.bank } o).1 := rfl

/-- The last heartbeat is from block `t` or later. -/
def Beat (d : State) (srv : AccId) (t : Nat) : Prop := ∃ t', d.w.node.imOnline.get srv = some t' ∧ t ≤ t'

theorem beat_step (cfg : Cfg) {d : State} {srv : AccId} {t : Nat} (h : Beat d srv t) (ht : t ≤ d.w.node.block) (op : Op) :
    Beat (step cfg d op) srv t ∧ d.w.node.block ≤ (step cfg d op).w.node.block := by
  by_cases hm : ∃ o, op = .world (.node o)
  · obtain ⟨o, rfl⟩ := hm
    refine ⟨?_, by rw [node_did]; exact DeeperNode.step_block cfg.world.node { d.w.node with bank := d.w.bank } o⟩
    by_cases hb : ∃ b, o = .heartbeat b
    · obtain ⟨b, rfl⟩ := hb
      have e : (step cfg d (.world (.node (.heartbeat b)))).w.node.imOnline = d.w.node.imOnline.insert b d.w.node.block := by
        rw [node_did]
        simp only [DeeperNode.step, DeeperNode.body, DeeperNode.heartbeat]
        split <;> rfl
      unfold Beat
      rw [e, FMap.get_insert]
      split
      · exact ⟨_, rfl, ht⟩
      · exact h
    · unfold Beat
      rw [node_did, (DeeperNode.step_heart cfg.world.node _ o fun b e => hb ⟨b, e⟩).2.2]
      exact h
  · have := node_kept cfg d op fun o he => hm ⟨o, he⟩
    unfold Beat
    rw [this]
    exact ⟨h, Nat.le_refl _⟩

/-- What the micropayment pallet reads about time and about the server is what the device registry says, whenever it is called. -/
def Tuned (cfg : Cfg) (srv : AccId) : State → List Op → Prop
  | _, [] => True
  | d, op :: ops =>
    (pays op → d.w.micro.block = d.w.node.block ∧ d.w.micro.erasOffline srv = DeeperNode.erasOffline cfg.world.node d.w.node srv) ∧
    Tuned cfg srv (step cfg d op) ops

theorem block_run (cfg : Cfg) {srv : AccId} {t : Nat} (ops : List Op) : ∀ d, Beat d srv t → t ≤ d.w.node.block →
    d.w.node.block ≤ (run cfg d ops).w.node.block := by
  induction ops with
  | nil => intro d _ _; exact Nat.le_refl _
  | cons op ops ih =>
    intro d h ht
    obtain ⟨h1, h2⟩ := beat_step cfg h ht op
    exact Nat.le_trans h2 (ih _ h1 (Nat.le_trans ht h2))

theorem live_run (cfg : Cfg) {srv : AccId} {e t : Nat} (ops : List Op) : ∀ d, Beat d srv t → t ≤ d.w.node.block → Tuned cfg srv d ops →
    (run cfg d ops).w.node.block ≤ e → (run cfg d ops).w.node.block < t + cfg.world.node.blocksPerEra → Live cfg srv e d ops := by
  induction ops with
  | nil => intro d _ _ _ _ _; trivial
  | cons op ops ih =>
    intro d h ht hu he hl
    obtain ⟨h1, h2⟩ := beat_step cfg h ht op
    have h3 := block_run cfg (op :: ops) d h ht
    refine ⟨fun hc => ⟨by rw [(hu.1 hc).1]; omega, ?_⟩, ih _ h1 (Nat.le_trans ht h2) hu.2 he hl⟩
    obtain ⟨t', e1, e2⟩ := h
    rw [(hu.1 hc).2]
    unfold DeeperNode.erasOffline
    rw [e1]
    exact Nat.div_eq_of_lt (by show d.w.node.block - t' < _; omega)

/-- C144: a heartbeat keeps the server online, whatever anybody does, until one era of blocks has passed since. -/
theorem C144_heartbeat (cfg : Cfg) (d : State) (srv : AccId) (e : Nat) (ops : List Op) :
    let d1 := step cfg d (.world (.node (.heartbeat srv)))
    Tuned cfg srv d1 ops → (run cfg d1 ops).w.node.block ≤ e →
    (run cfg d1 ops).w.node.block < d.w.node.block + cfg.world.node.blocksPerEra → Live cfg srv e d1 ops := by
  intro d1 hu he hl
  have hi : d1.w.node.imOnline = d.w.node.imOnline.insert srv d.w.node.block ∧ d1.w.node.block = d.w.node.block := by
    show (step cfg d (.world (.node (.heartbeat srv)))).w.node.imOnline = _ ∧ (step cfg d (.world (.node (.heartbeat srv)))).w.node.block = _
    rw [node_did]
    simp only [DeeperNode.step, DeeperNode.body, DeeperNode.heartbeat]
    split <;> exact ⟨rfl, rfl⟩
  refine live_run cfg (t := d.w.node.block) ops d1 ⟨d.w.node.block, ?_, Nat.le_refl _⟩ (Nat.le_of_eq hi.2.symm) hu he hl
  rw [hi.1, FMap.get_insert_self]

/-! ### Examples -/

/-- Account 1 opens a channel to account 2. -/
def exOpen : List Op := [.world (.money (.mint 9 50)), .world (.micro (.openChannel 1 2 100 500))]

/-- What others do: the client tries to close the channel; then adds to it, and the server spends money. -/
def exTry : List Op := [.world (.micro (.closeChannel 1 2)), .world (.micro (.closeExpired 1 [2]))]
def exMore : List Op := [.world (.micro (.addBalance 1 2 7)), .world (.money (.transfer 2 5 300 false)), .world (.micro (.closeChannel 1 2))]

/-- The hypotheses of `C144_paid` are met. -/
example : Paid exCfg 1 2 (run exCfg exStart exOpen) 4 [(exTry, 30, []), (exMore, 70, [])] := by
  have key := C144_paid exCfg (by decide) Tips.exCfg_inj (c0 := exStart) World.exWorld_genesis World.exWorld_start exSolid
    ⟨_, 0, fun _ => 0, rfl⟩ exOpen 1 2 (by decide) ⟨1, 2, 100, 0, 0, 100⟩ 4 [(exTry, 30, []), (exMore, 70, [])]
  refine (key (by decide +kernel) (fun last h => ?_) (by decide) ⟨by decide +kernel, by decide +kernel, trivial⟩ ?_).1
  · have : (run exCfg exStart exOpen).w.micro.sessions.get (1, 2) = none := by decide +kernel
    rw [this] at h; cases h
  · refine ⟨?_, ⟨fun _ => ⟨by decide +kernel, by decide +kernel⟩, fun _ => ⟨by decide +kernel, by decide +kernel⟩, trivial⟩, by decide +kernel, by decide +kernel, by decide +kernel,
      by decide +kernel, ?_, ⟨fun _ => ⟨by decide +kernel, by decide +kernel⟩, fun _ => ⟨by decide +kernel, by decide +kernel⟩, fun _ => ⟨by decide +kernel, by decide +kernel⟩, trivial⟩,
      by decide +kernel, by decide +kernel, by decide +kernel, by decide +kernel, trivial⟩
    · intro op h
      simp only [exTry, List.mem_cons, List.not_mem_nil, or_false] at h
      rcases h with rfl | rfl <;> simp [disposes, own]
    · intro op h
      simp only [exMore, List.mem_cons, List.not_mem_nil, or_false] at h
      rcases h with rfl | rfl | rfl <;> simp [disposes, own]

/-- 100 less the fees of 3 and 7 have arrived, and what the client has added is left. -/
example :
    let d := run exCfg exStart exOpen
    let d' := cashed exCfg 1 2 d 4 [(exTry, 30, []), (exMore, 70, [])]
    d.w.bank.free 2 = 1000 ∧ d'.w.bank.free 2 = 790 ∧ (d'.w.micro.chans.get (1, 2)).map (·.balance) = some 7 ∧
    d'.w.micro.sessions.get (1, 2) = some 5 := by
  decide +kernel

/-- Nine blocks pass, and the client tries to close the channel. -/
def exPass : List Op :=
  [.world (.node (.external 9 Council.exBank (fun _ _ _ => false) (fun _ _ _ => false))), .world (.micro (.external 9 (fun _ => 0) Council.exBank)),
   .world (.micro (.closeChannel 1 2))]

/-- The hypotheses of `C144_heartbeat` are met: nine blocks after a heartbeat, with an era of ten blocks. -/
example : Live exCfg 2 100 (step exCfg (run exCfg exStart exOpen) (.world (.node (.heartbeat 2)))) exPass := by
  refine C144_heartbeat exCfg (run exCfg exStart exOpen) 2 100 exPass ⟨fun h => h.elim, (fun h => Bool.noConfusion h), fun _ => ?_, trivial⟩
    (by decide +kernel) (by decide +kernel)
  exact ⟨by decide +kernel, by decide +kernel⟩

/-- With a tenth block the server would be offline. -/
example :
    let d1 := step exCfg (run exCfg exStart exOpen) (.world (.node (.heartbeat 2)))
    let d2 := step exCfg (run exCfg d1 exPass) (.world (.node (.external 1 Council.exBank (fun _ _ _ => false) (fun _ _ _ => false))))
    DeeperNode.erasOffline exCfg.world.node (run exCfg d1 exPass).w.node 2 = 0 ∧ DeeperNode.erasOffline exCfg.world.node d2.w.node 2 = 1 := by
  decide +kernel

/-- That the server is online is needed: otherwise the client closes the channel, and the voucher is worth nothing. -/
example :
    let d := run exCfg exStart exOpen
    let d' := cashed exCfg 1 2 d 4 [([.world (.micro (.external 1 (fun _ => 1) Council.exBank)), .world (.micro (.closeChannel 1 2))], 30, [])]
    d'.w.bank.free 2 = d.w.bank.free 2 ∧ (d'.w.micro.chans.get (1, 2)).isNone = true := by
  decide +kernel

/-- And so is that its locks do not exceed its balance: a server with a deposit which votes with all its free money
can still spend as much of that as its deposit (for transfers, the reserved money counts towards the lock); after that it is
not paid, because for taking the fee it does not count. -/
theorem C144_locks_needed :
    let d := run exCfg exStart (exOpen ++ [.world (.node (.register 2 DeeperNode.us)), .world (.council (.submit 3 0 true)), .world (.council (.vote 2 [3] 1000)),
      .world (.money (.transfer 2 5 100 false))])
    let d' := step exCfg d (claimOp 1 2 4 30 [])
    d.w.bank.free 2 = 788 ∧ d.w.bank.reserved 2 = 112 ∧ d.w.bank.frozen 2 = 888 ∧ d'.w.bank.free 2 = 788 ∧ (d'.w.micro.chans.get (1, 2)).map (·.balance) = some 100 := by
  decide +kernel

end Verif.Vouchers
