import Verif.BankExact
import Verif.DeeperNodeProofs

/-
Properties C22, C23, C24, C25, C61, C62: device registry.
-/

namespace Verif.DeeperNode

open Bank (reserve_exact unreserve_reserved unreserve_free reserved_of_acct)

/-! ### Steps -/

theorem step_cases (cfg : Cfg) (s : State) (op : Op) :
    (∃ r, body cfg s op = .ok r ∧ step cfg s op = r) ∨
    (∃ e, body cfg s op = .error e ∧ step cfg s op = (s, .failed e)) := by
  unfold step
  cases h : body cfg s op with
  | ok r => exact Or.inl ⟨r, rfl, rfl⟩
  | error e => exact Or.inr ⟨e, rfl, rfl⟩

theorem out_of_body {cfg : Cfg} {s : State} {op : Op} {r : State × Out} (h : body cfg s op = .ok r) :
    ∀ e, r.2 ≠ .failed e := by
  intro e he
  cases op <;> simp only [body] at h
  all_goals
    first
    | (obtain ⟨x, _, hx⟩ := map_ok h; rw [← hx] at he; cases he)
    | (cases h; cases he)

theorem standingStep_ok {cfg : Cfg} {s : State} {op : Op} {r : State × Out} (h : body cfg s op = .ok r)
    (a : AccId) (st : Standing) :
    standingStep a st (s, op, r.2) = if op.caller = some a then standingAfter st op else st := by
  have := out_of_body h
  unfold standingStep
  cases hr : r.2 with
  | failed e => exact absurd hr (this e)
  | done => rfl
  | npow e => rfl

theorem setSt_self {st : AccId → Standing} {a : AccId} {v : Standing} (h : st a = v) :
    setSt st a v = st := by
  funext x
  unfold setSt
  split
  · rename_i hx; rw [hx, h]
  · rfl

theorem setSt_setSt (st : AccId → Standing) (a : AccId) (v w : Standing) :
    setSt (setSt st a v) a w = setSt st a w := by
  funext x
  unfold setSt
  split <;> rfl

theorem Inv.get_none {s : State} {st : AccId → Standing} (h : Inv s st) {a : AccId}
    (hd : s.devices.get a = none) : st a = none := by
  have := h.dev a
  rw [hd] at this
  cases hs : st a with
  | none => rfl
  | some p => rw [hs] at this; cases this

theorem Inv.get_some {s : State} {st : AccId → Standing} (h : Inv s st) {a : AccId} {node : Node}
    (hd : s.devices.get a = some node) : ∃ b, st a = some (node.country, b) := by
  have := h.dev a
  rw [hd] at this
  cases hs : st a with
  | none => rw [hs] at this; cases this
  | some p =>
    rw [hs] at this
    simp only [Option.map_some, Option.some.injEq] at this
    exact ⟨p.2, by rw [this]⟩

/-- Writing the device entry of an account that is in no list. -/
theorem Inv.put {s : State} {st : AccId → Standing} (h : Inv s st) {a : AccId}
    (hst : ∀ c, st a ≠ some (c, true)) (c : Code) (hc : isCode c = true) (n : Nat) :
    Inv { s with devices := s.devices.insert a ⟨c, n⟩ } (setSt st a (some (c, false))) := by
  refine ⟨?_, ?_, h.csort, h.rsort, ?_, ?_⟩
  · intro x
    simp only [FMap.get_insert, setSt]
    split
    · rfl
    · exact h.dev x
  · intro x c b' hx
    simp only [setSt] at hx
    split at hx
    · cases hx; exact hc
    · exact h.code x c b' hx
  · intro x c'
    show x ∈ countryList s c' ↔ _
    rw [h.cmem]
    by_cases hx : x = a
    · subst hx; simp [setSt, hst]
    · simp [setSt, hx]
  · intro x r
    show x ∈ regionList s r ↔ _
    rw [h.rmem]
    by_cases hx : x = a
    · subst hx; simp [setSt, hst]
    · simp [setSt, hx]

theorem Inv.drop {s : State} {st : AccId → Standing} (h : Inv s st) {a : AccId}
    (hst : ∀ c, st a ≠ some (c, true)) :
    Inv { s with devices := s.devices.erase a } (setSt st a none) := by
  refine ⟨?_, ?_, h.csort, h.rsort, ?_, ?_⟩
  · intro x
    simp only [FMap.get_erase, setSt]
    split
    · rfl
    · exact h.dev x
  · intro x c b' hx
    simp only [setSt] at hx
    split at hx
    · cases hx
    · exact h.code x c b' hx
  · intro x c'
    show x ∈ countryList s c' ↔ _
    rw [h.cmem]
    by_cases hx : x = a
    · subst hx; simp [setSt, hst]
    · simp [setSt, hx]
  · intro x r
    show x ∈ regionList s r ↔ _
    rw [h.rmem]
    by_cases hx : x = a
    · subst hx; simp [setSt, hst]
    · simp [setSt, hx]

theorem setSt_not_serving (st : AccId → Standing) (a : AccId) (c c' : Code) :
    setSt st a (some (c, false)) a ≠ some (c', true) := by simp [setSt]

theorem step_inv (cfg : Cfg) {s : State} {st : AccId → Standing} (h : Inv s st) (op : Op) :
    Inv (step cfg s op).1 (fun a => standingStep a (st a) (s, op, (step cfg s op).2)) := by
  rcases step_cases cfg s op with ⟨r, hb, hs⟩ | ⟨e, hb, hs⟩
  swap
  · rw [hs]; exact h
  rw [hs]
  have hst : (fun a => standingStep a (st a) (s, op, r.2)) =
      fun a => if op.caller = some a then standingAfter (st a) op else st a := by
    funext a; exact standingStep_ok hb a _
  rw [hst]
  have hset : ∀ a, op.caller = some a → (fun x => if op.caller = some x then standingAfter (st x) op
      else st x) = setSt st a (standingAfter (st a) op) := by
    intro a ha
    funext x
    unfold setSt
    rw [ha]
    by_cases hx : x = a
    · simp [hx]
    · simp [hx, Ne.symm hx]
  cases op with
  | register a c =>
    rw [hset a rfl]
    simp only [body] at hb
    obtain ⟨s', hr, hs'⟩ := map_ok hb
    rw [← hs']
    show Inv s' _
    unfold register at hr
    split at hr
    · cases hr
    rename_i hc
    have hc : isCode c = true := by simpa using hc
    split at hr
    · rename_i hd
      split at hr
      · cases hr
      · cases hr
        have hn := h.get_none hd
        rw [hn]
        exact (h.put (by rw [hn]; intro c; exact (nomatch ·)) c hc s.block).congr (fun _ => rfl) rfl rfl
    · rename_i node hd
      obtain ⟨b, hsa⟩ := h.get_some hd
      rw [hsa]
      simp only at hr
      by_cases hcc : node.country = c
      · rw [if_neg (by simpa using hcc)] at hr
        cases hr
        simp only [standingAfter, hcc, if_true]
        have : setSt st a (some (c, b)) = st := setSt_self (by rw [hsa, hcc])
        rw [this]
        refine h.congr ?_ rfl rfl
        intro x
        simp only [FMap.get_insert]
        split
        · rename_i hx; rw [hx, hd]; simp [hcc]
        · rfl
      · rw [if_pos hcc] at hr
        cases hr
        simp only [standingAfter]
        rw [if_neg (fun e => hcc e.symm)]
        have h1 := tryRemove_inv h hd
        have h2 := h1.put (a := a) (fun c' => setSt_not_serving _ _ _ _) c hc s.block
        rw [setSt_setSt] at h2
        exact h2
  | unregister a =>
    rw [hset a rfl]
    simp only [body] at hb
    obtain ⟨s', hr, hs'⟩ := map_ok hb
    rw [← hs']
    show Inv s' _
    unfold unregister at hr
    split at hr
    · cases hr
    rename_i hc
    simp only [Bool.not_eq_true, Bool.not_eq_false', FMap.contains_iff] at hc
    obtain ⟨node, hd⟩ := hc
    cases hr
    have h1 := tryRemove_inv h hd
    have h2 := h1.drop (a := a) (fun c' => setSt_not_serving _ _ _ _)
    rw [setSt_setSt] at h2
    exact h2.congr (fun _ => rfl) rfl rfl
  | registerServer a n =>
    rw [hset a rfl]
    simp only [body] at hb
    obtain ⟨s', hr, hs'⟩ := map_ok hb
    rw [← hs']
    show Inv s' _
    unfold registerServer at hr
    split at hr
    · cases hr
    rename_i hc
    simp only [Bool.not_eq_true, Bool.not_eq_false', FMap.contains_iff] at hc
    obtain ⟨node, hd⟩ := hc
    split at hr
    · cases hr
    cases hr
    obtain ⟨b, hsa⟩ := h.get_some hd
    rw [hsa]
    exact tryAdd_inv h hsa _
  | updateServer a n =>
    rw [hset a rfl]
    simp only [body] at hb
    obtain ⟨s', hr, hs'⟩ := map_ok hb
    rw [← hs']
    show Inv s' _
    unfold updateServer at hr
    split at hr
    · cases hr
    rename_i node hd
    split at hr
    · cases hr
    cases hr
    rw [setSt_self (v := standingAfter (st a) _) rfl]
    refine h.congr ?_ rfl rfl
    intro x
    simp only [FMap.get_insert]
    split
    · rename_i hx; rw [hx, hd]; rfl
    · rfl
  | unregisterServer a =>
    rw [hset a rfl]
    simp only [body] at hb
    obtain ⟨s', hr, hs'⟩ := map_ok hb
    rw [← hs']
    show Inv s' _
    unfold unregisterServer at hr
    split at hr
    · cases hr
    rename_i hc
    simp only [Bool.not_eq_true, Bool.not_eq_false', FMap.contains_iff] at hc
    obtain ⟨node, hd⟩ := hc
    cases hr
    obtain ⟨b, hsa⟩ := h.get_some hd
    rw [hsa]
    exact tryRemove_inv h hd
  | heartbeat a =>
    rw [hset a rfl, setSt_self (v := standingAfter (st a) _) rfl]
    simp only [body] at hb
    cases hb
    unfold heartbeat
    simp only
    split <;> exact h.congr (fun _ => rfl) rfl rfl
  | reportProof a n sig p =>
    rw [hset a rfl, setSt_self (v := standingAfter (st a) _) rfl]
    simp only [body] at hb
    obtain ⟨s', hr, hs'⟩ := map_ok hb
    rw [← hs']
    unfold reportProof at hr
    split at hr
    · cases hr
    · cases hr; exact h.congr (fun _ => rfl) rfl rfl
  | rewardMapping a n sig e =>
    rw [hset a rfl, setSt_self (v := standingAfter (st a) _) rfl]
    simp only [body] at hb
    obtain ⟨s', hr, hs'⟩ := map_ok hb
    rw [← hs']
    unfold rewardMapping at hr
    split at hr
    · cases hr
    split at hr
    · cases hr
    split at hr
    · split at hr <;> cases hr <;> exact h.congr (fun _ => rfl) rfl rfl
    · cases hr; exact h.congr (fun _ => rfl) rfl rfl
  | npowReward a =>
    rw [hset a rfl, setSt_self (v := standingAfter (st a) _) rfl]
    simp only [body] at hb
    obtain ⟨s', hr, hs'⟩ := map_ok hb
    rw [← hs']
    exact h
  | external n b v w =>
    simp only [body] at hb
    cases hb
    exact h.congr (fun _ => rfl) rfl rfl

theorem run_inv (cfg : Cfg) (ops : List Op) : ∀ {s : State} {st : AccId → Standing}, Inv s st →
    Inv (run cfg s ops).1 (fun a => (run cfg s ops).2.foldl (standingStep a) (st a)) := by
  induction ops with
  | nil => intro s st h; exact h
  | cons op ops ih => intro s st h; exact ih (step_inv cfg h op)

/-- Genesis writes only the reward mapping. -/
theorem genesis_frame (bank : Bank) (rewards : List (AccId × Nat)) :
    ∃ e d, genesis bank rewards = { ({ bank := bank } : State) with evmToDeeper := e, deeperToEvm := d } := by
  have : ∀ (l : List (AccId × Nat)) (s : State), ∃ e d, l.foldl (fun s p =>
      { s with evmToDeeper := s.evmToDeeper.insert p.2 p.1, deeperToEvm := s.deeperToEvm.insert p.1 p.2 }) s
      = { s with evmToDeeper := e, deeperToEvm := d } := by
    intro l
    induction l with
    | nil => intro s; exact ⟨_, _, rfl⟩
    | cons p ps ih =>
      intro s
      obtain ⟨e, d, h⟩ := ih { s with evmToDeeper := s.evmToDeeper.insert p.2 p.1, deeperToEvm := s.deeperToEvm.insert p.1 p.2 }
      exact ⟨e, d, h⟩
  exact this rewards _

theorem genesis_inv (bank : Bank) (rewards : List (AccId × Nat)) :
    Inv (genesis bank rewards) (fun _ => none) := by
  obtain ⟨e, d, h⟩ := genesis_frame bank rewards
  rw [h]
  exact ⟨fun _ => rfl, fun _ _ _ h => (nomatch h), fun _ => List.Pairwise.nil, fun _ => List.Pairwise.nil,
    fun a c => by simp [countryList], fun a c => by simp [regionList]⟩

/-! ### C22 -/

/-- C22. After any history the list of a country holds, in increasing order, exactly the accounts
that are registered in that country and whose last server call was a registration; the list of a
region holds, in increasing order, exactly those whose country lies in the region or in one of its
parts. (`region` is the table of the chain: country → region → larger region.) -/
theorem C22_server_directory (cfg : Cfg) (bank : Bank) (rewards : List (AccId × Nat)) (ops : List Op) :
    let s := (run cfg (genesis bank rewards) ops).1
    let tr := (run cfg (genesis bank rewards) ops).2
    (∀ c, (countryList s c).Pairwise (· < ·)) ∧
    (∀ r, (regionList s r).Pairwise (· < ·)) ∧
    (∀ a c, a ∈ countryList s c ↔ standing a tr = some (c, true)) ∧
    (∀ a r, a ∈ regionList s r ↔
      ∃ c, standing a tr = some (c, true) ∧ (r = region c ∨ r = region (region c))) := by
  have h := run_inv cfg ops (genesis_inv bank rewards)
  exact ⟨h.csort, h.rsort, h.cmem, h.rmem⟩

/-- C22: the two regional lists of a country are different lists. -/
theorem C22_two_regions (c : Code) (h : isCode c = true) : region c ≠ region (region c) := region_ne h

def exCfg : Cfg := ⟨100, 7, 10⟩

def exBank : Bank :=
  { ed := 1, accts := ((∅ : FMap AccId Acct).insert 1 ⟨1000, 0⟩).insert 2 ⟨1000, 0⟩
    frozen := fun _ => 0, pinned := fun _ => false, issuance := 2000 }

/-- "US" -/
def us : Code := [85, 83]
/-- "CN" -/
def cn : Code := [67, 78]

/-- Two servers in one country, one of which moves away. -/
example :
    let s1 := (run exCfg (genesis exBank []) [.register 2 us, .registerServer 2 1, .register 1 us,
      .registerServer 1 1]).1
    let s2 := (step exCfg s1 (.register 2 cn)).1
    let s3 := (step exCfg s2 (.registerServer 2 1)).1
    (countryList s1 us, countryList s1 cn, regionList s1 (region us)) = ([1, 2], [], [1, 2]) ∧
    (countryList s2 us, countryList s2 cn, regionList s2 (region us)) = ([1], [], [1]) ∧
    (countryList s3 us, countryList s3 cn, regionList s3 (region (region cn))) = ([1], [2], [2]) := by
  decide +kernel

/-- C22, expiry: a server whose registration has expired stays in the lists until it calls again. -/
theorem C22_expired_server_still_listed :
    ∃ (ops : List Op) (a : AccId) (node : Node),
      let s := (run exCfg (genesis exBank []) ops).1
      s.devices.get a = some node ∧ node.expire < s.block ∧ a ∈ countryList s node.country := by
  refine ⟨[.register 1 us, .registerServer 1 1, .external 1000 exBank (fun _ _ _ => false)
    (fun _ _ _ => false)], 1, ⟨us, 10⟩, ?_⟩
  decide +kernel

/-! ### C23 -/

/-- Block of the first heartbeat of `a`. -/
def firstHeartbeat (a : AccId) : List (State × Op × Out) → Option Nat
  | [] => none
  | (s, .heartbeat b, _) :: tr => if b = a then some s.block else firstHeartbeat a tr
  | _ :: tr => firstHeartbeat a tr

/-- Block of the last heartbeat of `a`. -/
def lastHeartbeat (a : AccId) : List (State × Op × Out) → Option Nat
  | [] => none
  | (s, .heartbeat b, _) :: tr => (lastHeartbeat a tr).or (if b = a then some s.block else none)
  | _ :: tr => lastHeartbeat a tr

/-- Calls other than heartbeats do not touch heartbeat data. -/
theorem step_heart (cfg : Cfg) (s : State) (op : Op) (h : ∀ a, op ≠ .heartbeat a) :
    (step cfg s op).1.onboard = s.onboard ∧ (step cfg s op).1.onboardList = s.onboardList ∧
    (step cfg s op).1.imOnline = s.imOnline := by
  rcases step_cases cfg s op with ⟨r, hb, hs⟩ | ⟨e, hb, hs⟩
  swap
  · rw [hs]; exact ⟨rfl, rfl, rfl⟩
  rw [hs]
  cases op with
  | register a c =>
    simp only [body] at hb
    obtain ⟨s', hr, hs'⟩ := map_ok hb
    rw [← hs']
    unfold register at hr
    split at hr
    · cases hr
    split at hr
    · split at hr
      · cases hr
      · cases hr; exact ⟨rfl, rfl, rfl⟩
    · cases hr
      split
      · obtain ⟨x, y, z, he⟩ := tryRemove_frame s a
        rw [he]; exact ⟨rfl, rfl, rfl⟩
      · exact ⟨rfl, rfl, rfl⟩
  | unregister a =>
    simp only [body] at hb
    obtain ⟨s', hr, hs'⟩ := map_ok hb
    rw [← hs']
    unfold unregister at hr
    split at hr
    · cases hr
    cases hr
    obtain ⟨x, y, z, he⟩ := tryRemove_frame s a
    simp only [he, and_self]
  | registerServer a n =>
    simp only [body] at hb
    obtain ⟨s', hr, hs'⟩ := map_ok hb
    rw [← hs']
    unfold registerServer at hr
    split at hr
    · cases hr
    split at hr
    · cases hr
    cases hr
    obtain ⟨x, y, z, he⟩ := tryAdd_frame s a (n * cfg.blocksPerEra)
    simp only [he, and_self]
  | updateServer a n =>
    simp only [body] at hb
    obtain ⟨s', hr, hs'⟩ := map_ok hb
    rw [← hs']
    unfold updateServer at hr
    split at hr
    · cases hr
    split at hr
    · cases hr
    cases hr; exact ⟨rfl, rfl, rfl⟩
  | unregisterServer a =>
    simp only [body] at hb
    obtain ⟨s', hr, hs'⟩ := map_ok hb
    rw [← hs']
    unfold unregisterServer at hr
    split at hr
    · cases hr
    cases hr
    obtain ⟨x, y, z, he⟩ := tryRemove_frame s a
    simp only [he, and_self]
  | heartbeat a => exact absurd rfl (h a)
  | reportProof a n sig p =>
    simp only [body] at hb
    obtain ⟨s', hr, hs'⟩ := map_ok hb
    rw [← hs']
    unfold reportProof at hr
    split at hr
    · cases hr
    cases hr; exact ⟨rfl, rfl, rfl⟩
  | rewardMapping a n sig e =>
    simp only [body] at hb
    obtain ⟨s', hr, hs'⟩ := map_ok hb
    rw [← hs']
    unfold rewardMapping at hr
    split at hr
    · cases hr
    split at hr
    · cases hr
    split at hr
    · split at hr <;> cases hr <;> exact ⟨rfl, rfl, rfl⟩
    · cases hr; exact ⟨rfl, rfl, rfl⟩
  | npowReward a =>
    simp only [body] at hb
    obtain ⟨s', hr, hs'⟩ := map_ok hb
    rw [← hs']; exact ⟨rfl, rfl, rfl⟩
  | external n b v w =>
    simp only [body] at hb
    cases hb; exact ⟨rfl, rfl, rfl⟩

theorem firstHeartbeat_skip {op : Op} (h : ∀ a, op ≠ .heartbeat a) (a : AccId) (s : State) (o : Out)
    (tr : List (State × Op × Out)) : firstHeartbeat a ((s, op, o) :: tr) = firstHeartbeat a tr := by
  cases op <;> first | rfl | exact absurd rfl (h _)

theorem lastHeartbeat_skip {op : Op} (h : ∀ a, op ≠ .heartbeat a) (a : AccId) (s : State) (o : Out)
    (tr : List (State × Op × Out)) : lastHeartbeat a ((s, op, o) :: tr) = lastHeartbeat a tr := by
  cases op <;> first | rfl | exact absurd rfl (h _)

theorem run_onboard (cfg : Cfg) (ops : List Op) : ∀ (s : State),
    (s.onboardList.Nodup ∧ ∀ a, a ∈ s.onboardList ↔ s.onboard.contains a = true) →
    ((run cfg s ops).1.onboardList.Nodup ∧
      ∀ a, a ∈ (run cfg s ops).1.onboardList ↔ (run cfg s ops).1.onboard.contains a = true) ∧
    (∀ a, (run cfg s ops).1.onboard.get a = (s.onboard.get a).or (firstHeartbeat a (run cfg s ops).2)) ∧
    (∀ a, (run cfg s ops).1.imOnline.get a = (lastHeartbeat a (run cfg s ops).2).or (s.imOnline.get a)) := by
  induction ops with
  | nil => intro s h; exact ⟨h, fun a => by simp [run, firstHeartbeat], fun a => by simp [run, lastHeartbeat]⟩
  | cons op ops ih =>
    intro s h
    by_cases hop : ∃ a, op = .heartbeat a
    · obtain ⟨b, rfl⟩ := hop
      have hs : step cfg s (.heartbeat b) = (heartbeat s b, .done) := rfl
      have hinv : (heartbeat s b).onboardList.Nodup ∧
          ∀ a, a ∈ (heartbeat s b).onboardList ↔ (heartbeat s b).onboard.contains a = true := by
        unfold heartbeat
        simp only
        split
        · exact h
        · rename_i hc
          have hb : b ∉ s.onboardList := fun hb => hc ((h.2 b).1 hb)
          refine ⟨?_, ?_⟩
          · simp only [List.nodup_append, List.nodup_cons, List.not_mem_nil, not_false_eq_true,
              List.nodup_nil, and_self, List.mem_singleton, true_and]
            exact ⟨h.1, fun x hx y hy e => hb (hy ▸ e ▸ hx)⟩
          · intro a
            simp only [List.mem_append, List.mem_singleton, h.2, FMap.contains, FMap.get_insert]
            by_cases hab : a = b
            · simp [hab]
            · simp [hab]
      have := ih (heartbeat s b) hinv
      obtain ⟨h1, h2, h3⟩ := this
      simp only [run, hs]
      refine ⟨h1, ?_, ?_⟩
      · intro a
        rw [h2 a]
        simp only [firstHeartbeat]
        unfold heartbeat
        simp only
        by_cases hc : s.onboard.contains b = true
        · rw [if_pos hc]
          simp only
          by_cases hab : b = a
          · subst hab
            obtain ⟨v, hv⟩ := (FMap.contains_iff _ _).1 hc
            simp [hv]
          · simp [hab]
        · rw [if_neg hc]
          simp only
          by_cases hab : b = a
          · subst hab
            have : s.onboard.get b = none := by
              simpa [FMap.contains] using hc
            simp [this]
          · simp [hab, FMap.get_insert_ne _ _ (Ne.symm hab)]
      · intro a
        rw [h3 a]
        simp only [lastHeartbeat]
        have : (heartbeat s b).imOnline = s.imOnline.insert b s.block := by
          unfold heartbeat; simp only; split <;> rfl
        rw [this, FMap.get_insert]
        by_cases hab : a = b
        · subst hab; simp
        · simp [hab, Ne.symm hab]
    · have hop : ∀ a, op ≠ .heartbeat a := fun a e => hop ⟨a, e⟩
      obtain ⟨e1, e2, e3⟩ := step_heart cfg s op hop
      have := ih (step cfg s op).1 (by rw [e1, e2]; exact h)
      obtain ⟨h1, h2, h3⟩ := this
      simp only [run]
      refine ⟨h1, ?_, ?_⟩
      · intro a; rw [h2 a, e1, firstHeartbeat_skip hop]
      · intro a; rw [h3 a, e3, lastHeartbeat_skip hop]

/-- C23. The onboarded-device list holds every account at most once, namely exactly the accounts that
sent a heartbeat; the recorded onboard time is the block of the first heartbeat. -/
theorem C23_onboarded_once (cfg : Cfg) (bank : Bank) (rewards : List (AccId × Nat)) (ops : List Op) :
    let s := (run cfg (genesis bank rewards) ops).1
    let tr := (run cfg (genesis bank rewards) ops).2
    s.onboardList.Nodup ∧
    (∀ a, a ∈ s.onboardList ↔ (firstHeartbeat a tr).isSome = true) ∧
    (∀ a, s.onboard.get a = firstHeartbeat a tr) := by
  obtain ⟨e, d, hg⟩ := genesis_frame bank rewards
  have h := run_onboard cfg ops (genesis bank rewards) (by rw [hg]; exact ⟨List.nodup_nil, fun a => by simp [FMap.contains]⟩)
  have hget : ∀ a, (run cfg (genesis bank rewards) ops).1.onboard.get a =
      firstHeartbeat a (run cfg (genesis bank rewards) ops).2 := by
    intro a; rw [h.2.1 a, hg]; simp
  refine ⟨h.1.1, ?_, hget⟩
  intro a
  rw [h.1.2 a, ← hget]
  rfl

theorem firstHeartbeat_append {a : AccId} {tr tr' : List (State × Op × Out)} {t : Nat}
    (h : firstHeartbeat a tr = some t) : firstHeartbeat a (tr ++ tr') = some t := by
  induction tr with
  | nil => cases h
  | cons e es ih =>
    obtain ⟨s, op, o⟩ := e
    by_cases hop : ∃ b, op = .heartbeat b
    · obtain ⟨b, rfl⟩ := hop
      simp only [List.cons_append, firstHeartbeat] at h ⊢
      split at h
      · rename_i hb; rw [if_pos hb]; exact h
      · rename_i hb; rw [if_neg hb]; exact ih h
    · have hop : ∀ b, op ≠ .heartbeat b := fun b e => hop ⟨b, e⟩
      rw [List.cons_append, firstHeartbeat_skip hop] at *
      exact ih h

theorem run_append (cfg : Cfg) (ops ops' : List Op) : ∀ s,
    run cfg s (ops ++ ops') = ((run cfg (run cfg s ops).1 ops').1,
      (run cfg s ops).2 ++ (run cfg (run cfg s ops).1 ops').2) := by
  induction ops with
  | nil => intro s; rfl
  | cons op ops ih => intro s; simp only [List.cons_append, run, ih]

/-- C23: once recorded, the onboard time never changes. -/
theorem C23_onboard_time_fixed (cfg : Cfg) (bank : Bank) (rewards : List (AccId × Nat))
    (ops later : List Op) (a : AccId) (t : Nat)
    (h : (run cfg (genesis bank rewards) ops).1.onboard.get a = some t) :
    (run cfg (genesis bank rewards) (ops ++ later)).1.onboard.get a = some t := by
  rw [(C23_onboarded_once cfg bank rewards _).2.2] at h ⊢
  rw [run_append]
  exact firstHeartbeat_append h

example :
    let s := (run exCfg (genesis exBank []) [.heartbeat 1, .external 5 exBank (fun _ _ _ => false)
      (fun _ _ _ => false), .register 2 us, .heartbeat 2, .heartbeat 1, .unregister 2, .heartbeat 2]).1
    (s.onboardList, s.onboard.get 1, s.onboard.get 2, s.imOnline.get 1) = ([1, 2], some 0, some 5, some 5) := by
  decide +kernel

/-! ### C62 -/

/-- C62. The number of eras a device counts as offline is the number of whole eras since its last
heartbeat (since block 0 if it never sent one). -/
theorem C62_offline_eras (cfg : Cfg) (bank : Bank) (rewards : List (AccId × Nat)) (ops : List Op)
    (a : AccId) :
    let s := (run cfg (genesis bank rewards) ops).1
    let tr := (run cfg (genesis bank rewards) ops).2
    erasOffline cfg s a = (s.block - (lastHeartbeat a tr).getD 0) / cfg.blocksPerEra := by
  obtain ⟨e, d, hg⟩ := genesis_frame bank rewards
  have h := run_onboard cfg ops (genesis bank rewards) (by rw [hg]; exact ⟨List.nodup_nil, fun a => by simp [FMap.contains]⟩)
  simp only
  unfold erasOffline
  rw [h.2.2 a, hg]
  simp

example :
    let s := (run exCfg (genesis exBank []) [.heartbeat 1, .external 25 exBank (fun _ _ _ => false)
      (fun _ _ _ => false), .heartbeat 2, .external 10 exBank (fun _ _ _ => false) (fun _ _ _ => false)]).1
    (erasOffline exCfg s 1, erasOffline exCfg s 2, erasOffline exCfg s 3) = (3, 1, 3) := by
  decide +kernel

/-! ### C24 -/

/-- What the registry itself has added to the reserved balance of `a`. -/
def lockedByRegistry (cfg : Cfg) (a : AccId) : List (State × Op × Out) → Int
  | [] => 0
  | (_, .external _ _ _ _, _) :: tr => lockedByRegistry cfg a tr
  | (s, op, _) :: tr =>
    ((step cfg s op).1.bank.reserved a - s.bank.reserved a : Int) + lockedByRegistry cfg a tr

/-- What happens outside the registry leaves at least the lock reserved for every registered device. -/
def OutsideRespectsLock (cfg : Cfg) (tr : List (State × Op × Out)) : Prop :=
  ∀ s n b v w o, (s, Op.external n b v w, o) ∈ tr → ∀ a, s.devices.contains a = true →
    cfg.minLock ≤ b.reserved a

/-- A call either leaves the balances and the set of registered devices alone, or registers a new
device, or unregisters one. -/
theorem step_shape (cfg : Cfg) (s : State) (op : Op) (hop : ∀ n b v w, op ≠ .external n b v w) :
    ((step cfg s op).1.bank = s.bank ∧
      (∀ x, (step cfg s op).1.devices.contains x = s.devices.contains x)) ∨
    (∃ a c, op = .register a c ∧ s.devices.contains a = false ∧
      s.bank.reserve a cfg.minLock = .ok (step cfg s op).1.bank ∧
      ∀ x, (step cfg s op).1.devices.contains x = (decide (x = a) || s.devices.contains x)) ∨
    (∃ a, op = .unregister a ∧ s.devices.contains a = true ∧
      (step cfg s op).1.bank = s.bank.unreserve a cfg.minLock ∧
      ∀ x, (step cfg s op).1.devices.contains x = (!decide (x = a) && s.devices.contains x)) := by
  have hrem : ∀ a, s.devices.contains a = true → ∀ x, (tryRemove s a).devices.contains x = s.devices.contains x := by
    intro a ha x
    obtain ⟨node, hd⟩ := (FMap.contains_iff _ _).1 ha
    unfold tryRemove
    rw [hd]
    simp only [FMap.contains, FMap.get_insert, devices_regionRemove, devices_countryRemove]
    split
    · rename_i hx; rw [hx, hd]; rfl
    · rfl
  have hadd : ∀ a n, s.devices.contains a = true → ∀ x, (tryAdd s a n).devices.contains x = s.devices.contains x := by
    intro a n ha x
    obtain ⟨node, hd⟩ := (FMap.contains_iff _ _).1 ha
    have e1 : ∀ (s : State) l a c, (countryInsert s l a c).1.devices = s.devices := by
      intro s l a c; unfold countryInsert; split <;> rfl
    have e2 : ∀ (s : State) l a c, (regionInsert s l a c).1.devices = s.devices := by
      intro s l a c; unfold regionInsert; split <;> rfl
    unfold tryAdd
    simp only
    split
    · rfl
    split
    · simp [e1]
    split
    · simp [e1, e2]
    · simp only [FMap.contains, FMap.get_insert, e1, e2]
      split
      · rename_i hx; rw [hx, hd]; rfl
      · rfl
  rcases step_cases cfg s op with ⟨r, hb, hs⟩ | ⟨e, hb, hs⟩
  swap
  · rw [hs]; exact Or.inl ⟨rfl, fun _ => rfl⟩
  rw [hs]
  cases op with
  | register a c =>
    simp only [body] at hb
    obtain ⟨s', hr, hs'⟩ := map_ok hb
    rw [← hs']
    unfold register at hr
    split at hr
    · cases hr
    split at hr
    · rename_i hd
      split at hr
      · cases hr
      · rename_i b hb
        cases hr
        right; left
        refine ⟨a, c, rfl, by simp [FMap.contains, hd], hb, ?_⟩
        intro x
        simp only [FMap.contains, FMap.get_insert]
        by_cases hx : x = a
        · simp [hx]
        · simp [hx]
    · rename_i node hd
      cases hr
      left
      refine ⟨?_, ?_⟩
      · simp only
        split
        · obtain ⟨x, y, z, he⟩ := tryRemove_frame s a
          rw [he]
        · rfl
      · intro x
        have hc : s.devices.contains a = true := (FMap.contains_iff _ _).2 ⟨_, hd⟩
        have := hrem a hc x
        simp only [FMap.contains, FMap.get_insert] at this ⊢
        split
        · rename_i hx; rw [hx, hd]; rfl
        · split
          · exact this
          · rfl
  | unregister a =>
    simp only [body] at hb
    obtain ⟨s', hr, hs'⟩ := map_ok hb
    rw [← hs']
    unfold unregister at hr
    split at hr
    · cases hr
    rename_i hc
    have hc : s.devices.contains a = true := by simpa using hc
    cases hr
    right; right
    refine ⟨a, rfl, hc, ?_, ?_⟩
    · obtain ⟨x, y, z, he⟩ := tryRemove_frame s a
      simp only [he]
    · intro x
      have := hrem a hc x
      simp only [FMap.contains, FMap.get_erase] at this ⊢
      by_cases hx : x = a
      · simp [hx]
      · simp [hx, this]
  | registerServer a n =>
    simp only [body] at hb
    obtain ⟨s', hr, hs'⟩ := map_ok hb
    rw [← hs']
    unfold registerServer at hr
    split at hr
    · cases hr
    rename_i hc
    have hc : s.devices.contains a = true := by simpa using hc
    split at hr
    · cases hr
    cases hr
    left
    refine ⟨?_, hadd a _ hc⟩
    obtain ⟨x, y, z, he⟩ := tryAdd_frame s a (n * cfg.blocksPerEra)
    simp only [he]
  | updateServer a n =>
    simp only [body] at hb
    obtain ⟨s', hr, hs'⟩ := map_ok hb
    rw [← hs']
    unfold updateServer at hr
    split at hr
    · cases hr
    rename_i node hd
    split at hr
    · cases hr
    cases hr
    left
    refine ⟨rfl, ?_⟩
    intro x
    simp only [FMap.contains, FMap.get_insert]
    split
    · rename_i hx; rw [hx, hd]; rfl
    · rfl
  | unregisterServer a =>
    simp only [body] at hb
    obtain ⟨s', hr, hs'⟩ := map_ok hb
    rw [← hs']
    unfold unregisterServer at hr
    split at hr
    · cases hr
    rename_i hc
    have hc : s.devices.contains a = true := by simpa using hc
    cases hr
    left
    refine ⟨?_, hrem a hc⟩
    obtain ⟨x, y, z, he⟩ := tryRemove_frame s a
    simp only [he]
  | heartbeat a =>
    simp only [body] at hb
    cases hb
    left
    unfold heartbeat
    simp only
    split <;> exact ⟨rfl, fun _ => rfl⟩
  | reportProof a n sig p =>
    simp only [body] at hb
    obtain ⟨s', hr, hs'⟩ := map_ok hb
    rw [← hs']
    unfold reportProof at hr
    split at hr
    · cases hr
    cases hr; exact Or.inl ⟨rfl, fun _ => rfl⟩
  | rewardMapping a n sig e =>
    simp only [body] at hb
    obtain ⟨s', hr, hs'⟩ := map_ok hb
    rw [← hs']
    unfold rewardMapping at hr
    split at hr
    · cases hr
    split at hr
    · cases hr
    split at hr
    · split at hr <;> cases hr <;> exact Or.inl ⟨rfl, fun _ => rfl⟩
    · cases hr; exact Or.inl ⟨rfl, fun _ => rfl⟩
  | npowReward a =>
    simp only [body] at hb
    obtain ⟨s', hr, hs'⟩ := map_ok hb
    rw [← hs']; exact Or.inl ⟨rfl, fun _ => rfl⟩
  | external n b v w => exact absurd rfl (hop n b v w)

theorem lockedByRegistry_cons {op : Op} (hop : ∀ n b v w, op ≠ .external n b v w) (cfg : Cfg) (a : AccId)
    (s : State) (o : Out) (tr : List (State × Op × Out)) :
    lockedByRegistry cfg a ((s, op, o) :: tr) =
      ((step cfg s op).1.bank.reserved a - s.bank.reserved a : Int) + lockedByRegistry cfg a tr := by
  cases op <;> first | rfl | exact absurd rfl (hop _ _ _ _)

/-- The lock of an account that is or is not registered. -/
def due (cfg : Cfg) : Bool → Int
  | true => cfg.minLock
  | false => 0

theorem run_lock (cfg : Cfg) (ops : List Op) : ∀ (s : State),
    (∀ a, s.devices.contains a = true → cfg.minLock ≤ s.bank.reserved a) →
    OutsideRespectsLock cfg (run cfg s ops).2 →
    (∀ a, (run cfg s ops).1.devices.contains a = true → cfg.minLock ≤ (run cfg s ops).1.bank.reserved a) ∧
    ∀ a, lockedByRegistry cfg a (run cfg s ops).2 + due cfg (s.devices.contains a) =
      due cfg ((run cfg s ops).1.devices.contains a) := by
  induction ops with
  | nil => intro s h _; exact ⟨h, fun a => by simp [run, lockedByRegistry]⟩
  | cons op ops ih =>
    intro s h ho
    have ho' : OutsideRespectsLock cfg (run cfg (step cfg s op).1 ops).2 :=
      fun s' n b v w o hm => ho s' n b v w o (List.mem_cons_of_mem _ hm)
    by_cases hop : ∃ n b v w, op = .external n b v w
    · obtain ⟨n, b, v, w, rfl⟩ := hop
      have := ih (step cfg s (.external n b v w)).1
        (fun a ha => ho s n b v w _ (List.mem_cons_self ..) a ha) ho'
      simp only [run]
      refine ⟨this.1, fun a => ?_⟩
      rw [← this.2 a]
      rfl
    · have hop : ∀ n b v w, op ≠ .external n b v w := fun n b v w e => hop ⟨n, b, v, w, e⟩
      rcases step_shape cfg s op hop with ⟨hbk, hdv⟩ | ⟨a, c, rfl, hna, hrs, hdv⟩ | ⟨a, rfl, hca, hbk, hdv⟩
      · have := ih (step cfg s op).1 (fun a ha => by rw [hbk]; exact h a (by rw [← hdv]; exact ha)) ho'
        simp only [run]
        refine ⟨this.1, fun a => ?_⟩
        rw [lockedByRegistry_cons hop, ← this.2 a, hbk, hdv]
        omega
      · obtain ⟨h1, h2, h3⟩ := reserve_exact hrs
        have := ih (step cfg s (.register a c)).1 (fun x hx => by
          by_cases hxa : x = a
          · subst hxa; omega
          · rw [hdv] at hx
            simp only [hxa, decide_false, Bool.false_or] at hx
            rw [reserved_of_acct (h3 x hxa)]
            exact h x hx) ho'
        simp only [run]
        refine ⟨this.1, fun x => ?_⟩
        rw [lockedByRegistry_cons hop, ← this.2 x, hdv]
        by_cases hxa : x = a
        · subst hxa
          simp only [hna, decide_true, Bool.true_or, due, h1]
          omega
        · rw [reserved_of_acct (h3 x hxa)]
          simp only [hxa, decide_false, Bool.false_or]
          omega
      · obtain ⟨h1, h3⟩ := unreserve_reserved (h a hca)
        rw [← hbk] at h1 h3
        have := ih (step cfg s (.unregister a)).1 (fun x hx => by
          by_cases hxa : x = a
          · subst hxa; rw [hdv] at hx; simp at hx
          · rw [hdv] at hx
            simp only [hxa, decide_false, Bool.not_false, Bool.true_and] at hx
            rw [reserved_of_acct (h3 x hxa)]
            exact h x hx) ho'
        simp only [run]
        refine ⟨this.1, fun x => ?_⟩
        rw [lockedByRegistry_cons hop, ← this.2 x, hdv]
        by_cases hxa : x = a
        · subst hxa
          simp only [hca, decide_true, Bool.not_true, Bool.false_and, due]
          omega
        · rw [reserved_of_acct (h3 x hxa)]
          simp only [hxa, decide_false, Bool.not_false, Bool.true_and]
          omega

/-- C24. For every account, what the registry has added to its reserved balance is the lock amount
while a device is registered and zero otherwise. -/
theorem C24_lock_while_registered (cfg : Cfg) (bank : Bank) (rewards : List (AccId × Nat))
    (ops : List Op) (a : AccId)
    (ho : OutsideRespectsLock cfg (run cfg (genesis bank rewards) ops).2) :
    lockedByRegistry cfg a (run cfg (genesis bank rewards) ops).2 =
      if (standing a (run cfg (genesis bank rewards) ops).2).isSome = true then (cfg.minLock : Int) else 0 := by
  obtain ⟨e, d, hg⟩ := genesis_frame bank rewards
  have hd : ∀ a, (genesis bank rewards).devices.contains a = false := by
    intro a; rw [hg]; rfl
  have h := (run_lock cfg ops (genesis bank rewards) (fun a ha => by rw [hd] at ha; cases ha) ho).2 a
  have hi := (run_inv cfg ops (genesis_inv bank rewards)).dev a
  rw [hd] at h
  have hc : (run cfg (genesis bank rewards) ops).1.devices.contains a =
      (standing a (run cfg (genesis bank rewards) ops).2).isSome := by
    have := congrArg Option.isSome hi
    simpa [FMap.contains, standing] using this
  rw [hc] at h
  simp only [due, Int.add_zero] at h
  rw [h]
  cases (standing a (run cfg (genesis bank rewards) ops).2).isSome <;> rfl

/-- C24: unregistering moves exactly the lock amount from the reserved to the free balance, touches
no other account, and the total is unchanged (provided the account stays above the existential
deposit; otherwise the balance is dust and the account disappears). -/
theorem C24_refund_exact (cfg : Cfg) (bank : Bank) (rewards : List (AccId × Nat)) (ops : List Op)
    (a : AccId) (ho : OutsideRespectsLock cfg (run cfg (genesis bank rewards) ops).2) :
    let s := (run cfg (genesis bank rewards) ops).1
    let s' := (step cfg s (.unregister a)).1
    (step cfg s (.unregister a)).2 = .done →
    s'.bank.reserved a + cfg.minLock = s.bank.reserved a ∧
    (s.bank.ed ≤ s.bank.free a + cfg.minLock → s'.bank.free a = s.bank.free a + cfg.minLock) ∧
    ∀ x, x ≠ a → s'.bank.acct x = s.bank.acct x := by
  intro s s' hdone
  obtain ⟨e, d, hg⟩ := genesis_frame bank rewards
  have hl := (run_lock cfg ops (genesis bank rewards) (fun a ha => by rw [hg] at ha; cases ha) ho).1
  have hc : s.devices.contains a = true := by
    rcases step_cases cfg s (.unregister a) with ⟨r, hb, hs⟩ | ⟨e, hb, hs⟩
    · simp only [body] at hb
      obtain ⟨s2, hr, _⟩ := map_ok hb
      unfold unregister at hr
      split at hr
      · cases hr
      · rename_i hc; simpa using hc
    · rw [hs] at hdone; cases hdone
  rcases step_shape cfg s (.unregister a) (fun _ _ _ _ => (nomatch ·)) with ⟨_, hdv⟩ | ⟨_, _, h, _⟩ | ⟨b, h, _, hbk, hdv⟩
  · exfalso
    have h1 := hdv a
    rw [hc] at h1
    rcases step_cases cfg s (.unregister a) with ⟨r, hb, hs⟩ | ⟨e, hb, hs⟩
    · simp only [body] at hb
      obtain ⟨s2, hr, hs2⟩ := map_ok hb
      unfold unregister at hr
      simp only [hc, Bool.not_true, Bool.false_eq_true, if_false] at hr
      cases hr
      rw [hs, ← hs2] at h1
      simp [FMap.contains] at h1
    · rw [hs] at hdone; cases hdone
  · cases h
  · cases h
    obtain ⟨h1, h2⟩ := unreserve_reserved (hl a hc)
    refine ⟨by show Bank.reserved (step cfg s (.unregister a)).1.bank a + _ = _; rw [hbk]; exact h1, ?_, ?_⟩
    · intro hed
      show Bank.free (step cfg s (.unregister a)).1.bank a = _
      rw [hbk]
      exact unreserve_free (hl a hc) hed
    · intro x hx
      show Bank.acct (step cfg s (.unregister a)).1.bank x = _
      rw [hbk]
      exact h2 x hx

example :
    let s := (run exCfg (genesis exBank []) [.register 1 us, .register 1 cn, .register 2 us]).1
    let s' := (step exCfg s (.unregister 1)).1
    (s.bank.reserved 1, s.bank.free 1, s'.bank.reserved 1, s'.bank.free 1, s'.bank.reserved 2)
      = (100, 900, 0, 1000, 100) := by
  decide +kernel

/-! ### C25 -/

/-- The mapping calls that were accepted, in order. -/
def acceptedMappings : List (State × Op × Out) → List (AccId × Nat)
  | [] => []
  | (_, .rewardMapping a _ _ e, .done) :: tr => (a, e) :: acceptedMappings tr
  | _ :: tr => acceptedMappings tr

/-- The storage tables agree with the list of all mappings made so far. -/
structure MapInv (s : State) (l : List (AccId × Nat)) : Prop where
  nodup : (l.map Prod.snd).Nodup
  evm : ∀ a e, s.evmToDeeper.get e = some a ↔ (a, e) ∈ l
  deep : ∀ a, s.deeperToEvm.get a = (l.reverse.find? (fun p => decide (p.1 = a))).map Prod.snd

theorem MapInv.snoc {s : State} {l : List (AccId × Nat)} (h : MapInv s l) (a : AccId) (e : Nat)
    (hne : e ∉ l.map Prod.snd) (s' : State) (h1 : s'.evmToDeeper = s.evmToDeeper.insert e a)
    (h2 : s'.deeperToEvm = s.deeperToEvm.insert a e) : MapInv s' (l ++ [(a, e)]) := by
  refine ⟨?_, ?_, ?_⟩
  · rw [List.map_append, List.nodup_append]
    refine ⟨h.nodup, by simp, ?_⟩
    intro x hx y hy hxy
    simp only [List.map_cons, List.map_nil, List.mem_singleton] at hy
    exact hne (hy ▸ hxy ▸ hx)
  · intro x y
    rw [h1, FMap.get_insert]
    simp only [List.mem_append, List.mem_singleton, Prod.mk.injEq]
    by_cases hy : y = e
    · subst hy
      simp only [if_true, Option.some.injEq, and_true]
      constructor
      · intro hx; exact Or.inr hx.symm
      · rintro (hx | hx)
        · exact absurd (List.mem_map.2 ⟨_, hx, rfl⟩) hne
        · exact hx.symm
    · simp only [hy, if_false, and_false, or_false]
      exact h.evm x y
  · intro x
    rw [h2, FMap.get_insert, List.reverse_append]
    simp only [List.reverse_cons, List.reverse_nil, List.nil_append, List.cons_append, List.find?_cons]
    by_cases hx : x = a
    · simp [hx]
    · simp only [hx, if_false, Ne.symm hx, decide_false]
      exact h.deep x

theorem step_maps (cfg : Cfg) (s : State) (op : Op)
    (h : ∀ a n sig e, op ≠ .rewardMapping a n sig e) :
    (step cfg s op).1.evmToDeeper = s.evmToDeeper ∧ (step cfg s op).1.deeperToEvm = s.deeperToEvm := by
  rcases step_cases cfg s op with ⟨r, hb, hs⟩ | ⟨e, hb, hs⟩
  swap
  · rw [hs]; exact ⟨rfl, rfl⟩
  rw [hs]
  cases op with
  | register a c =>
    simp only [body] at hb
    obtain ⟨s', hr, hs'⟩ := map_ok hb
    rw [← hs']
    unfold register at hr
    split at hr
    · cases hr
    split at hr
    · split at hr
      · cases hr
      · cases hr; exact ⟨rfl, rfl⟩
    · cases hr
      split
      · obtain ⟨x, y, z, he⟩ := tryRemove_frame s a
        rw [he]; exact ⟨rfl, rfl⟩
      · exact ⟨rfl, rfl⟩
  | unregister a =>
    simp only [body] at hb
    obtain ⟨s', hr, hs'⟩ := map_ok hb
    rw [← hs']
    unfold unregister at hr
    split at hr
    · cases hr
    cases hr
    obtain ⟨x, y, z, he⟩ := tryRemove_frame s a
    simp only [he, and_self]
  | registerServer a n =>
    simp only [body] at hb
    obtain ⟨s', hr, hs'⟩ := map_ok hb
    rw [← hs']
    unfold registerServer at hr
    split at hr
    · cases hr
    split at hr
    · cases hr
    cases hr
    obtain ⟨x, y, z, he⟩ := tryAdd_frame s a (n * cfg.blocksPerEra)
    simp only [he, and_self]
  | updateServer a n =>
    simp only [body] at hb
    obtain ⟨s', hr, hs'⟩ := map_ok hb
    rw [← hs']
    unfold updateServer at hr
    split at hr
    · cases hr
    split at hr
    · cases hr
    cases hr; exact ⟨rfl, rfl⟩
  | unregisterServer a =>
    simp only [body] at hb
    obtain ⟨s', hr, hs'⟩ := map_ok hb
    rw [← hs']
    unfold unregisterServer at hr
    split at hr
    · cases hr
    cases hr
    obtain ⟨x, y, z, he⟩ := tryRemove_frame s a
    simp only [he, and_self]
  | heartbeat a =>
    simp only [body] at hb
    cases hb
    unfold heartbeat
    simp only
    split <;> exact ⟨rfl, rfl⟩
  | reportProof a n sig p =>
    simp only [body] at hb
    obtain ⟨s', hr, hs'⟩ := map_ok hb
    rw [← hs']
    unfold reportProof at hr
    split at hr
    · cases hr
    cases hr; exact ⟨rfl, rfl⟩
  | rewardMapping a n sig e => exact absurd rfl (h a n sig e)
  | npowReward a =>
    simp only [body] at hb
    obtain ⟨s', hr, hs'⟩ := map_ok hb
    rw [← hs']; exact ⟨rfl, rfl⟩
  | external n b v w =>
    simp only [body] at hb
    cases hb; exact ⟨rfl, rfl⟩

theorem acceptedMappings_skip {op : Op} (h : ∀ a n sig e, op ≠ .rewardMapping a n sig e) (s : State)
    (o : Out) (tr : List (State × Op × Out)) :
    acceptedMappings ((s, op, o) :: tr) = acceptedMappings tr := by
  cases op <;> first | rfl | exact absurd rfl (h _ _ _ _)

/-- A mapping call that is accepted on consistent tables. -/
theorem rewardMapping_ok {s s' : State} {l : List (AccId × Nat)} (h : MapInv s l) {a : AccId} {n : Nat}
    {sig : List Nat} {e : Nat} (hr : rewardMapping s a n sig e = .ok s') :
    s.verifyNew n sig a = true ∧ e ∉ l.map Prod.snd ∧
    s' = { s with evmToDeeper := s.evmToDeeper.insert e a, deeperToEvm := s.deeperToEvm.insert a e } := by
  unfold rewardMapping at hr
  split at hr
  · cases hr
  rename_i hv
  split at hr
  · cases hr
  rename_i hc
  have hne : e ∉ l.map Prod.snd := by
    intro hm
    obtain ⟨⟨x, y⟩, hm2, hxy⟩ := List.mem_map.1 hm
    cases hxy
    exact hc ((FMap.contains_iff _ _).2 ⟨x, (h.evm x _).2 hm2⟩)
  refine ⟨by simpa using hv, hne, ?_⟩
  split at hr
  · rename_i old hold
    split at hr
    · cases hr; rfl
    · rename_i heq
      exfalso
      have heq : e = old := by simpa using heq
      rw [h.deep a, Option.map_eq_some_iff] at hold
      obtain ⟨p, hp, hp2⟩ := hold
      have hm := List.mem_of_find?_eq_some hp
      rw [List.mem_reverse] at hm
      exact hne (heq ▸ hp2 ▸ List.mem_map.2 ⟨p, hm, rfl⟩)
  · cases hr; rfl

theorem run_maps (cfg : Cfg) (ops : List Op) : ∀ (s : State) (l : List (AccId × Nat)), MapInv s l →
    MapInv (run cfg s ops).1 (l ++ acceptedMappings (run cfg s ops).2) := by
  induction ops with
  | nil => intro s l h; simpa [run, acceptedMappings] using h
  | cons op ops ih =>
    intro s l h
    simp only [run]
    by_cases hop : ∃ a n sig e, op = .rewardMapping a n sig e
    · obtain ⟨a, n, sig, e, rfl⟩ := hop
      rcases step_cases cfg s (.rewardMapping a n sig e) with ⟨r, hb, hs⟩ | ⟨er, hb, hs⟩
      · simp only [body] at hb
        obtain ⟨s', hr, hs'⟩ := map_ok hb
        obtain ⟨_, hne, heq⟩ := rewardMapping_ok h hr
        rw [hs, ← hs']
        simp only [acceptedMappings]
        have := ih s' _ (h.snoc a e hne s' (by rw [heq]) (by rw [heq]))
        rw [List.append_assoc] at this
        exact this
      · rw [hs]
        simp only [acceptedMappings]
        exact ih s l h
    · have hop : ∀ a n sig e, op ≠ .rewardMapping a n sig e := fun a n sig e h => hop ⟨a, n, sig, e, h⟩
      obtain ⟨e1, e2⟩ := step_maps cfg s op hop
      rw [acceptedMappings_skip hop]
      exact ih _ l ⟨h.nodup, by rw [e1]; exact h.evm, by rw [e2]; exact h.deep⟩

theorem genesis_maps (bank : Bank) (rewards : List (AccId × Nat)) (h : (rewards.map Prod.snd).Nodup) :
    MapInv (genesis bank rewards) rewards := by
  have : ∀ (l l0 : List (AccId × Nat)) (s : State), MapInv s l0 → ((l0 ++ l).map Prod.snd).Nodup →
      MapInv (l.foldl (fun s p =>
        { s with evmToDeeper := s.evmToDeeper.insert p.2 p.1, deeperToEvm := s.deeperToEvm.insert p.1 p.2 }) s)
        (l0 ++ l) := by
    intro l
    induction l with
    | nil => intro l0 s h _; simpa using h
    | cons p ps ih =>
      intro l0 s h hn
      have hne : p.2 ∉ l0.map Prod.snd := by
        rw [List.map_append, List.nodup_append] at hn
        intro hm
        exact hn.2.2 _ hm _ (by simp) rfl
      have := ih (l0 ++ [p]) { s with evmToDeeper := s.evmToDeeper.insert p.2 p.1, deeperToEvm := s.deeperToEvm.insert p.1 p.2 }
        (h.snoc p.1 p.2 hne _ rfl rfl) (by simpa using hn)
      simpa using this
  exact this rewards [] { bank := bank } ⟨by simp, by simp, by simp⟩ (by simpa using h)

/-- C25, what holds: with `l` the mappings of the genesis configuration followed by the accepted
mapping calls, every EVM address occurs in `l` at most once and belongs to the account it was mapped
for; the address of an account is its latest one, and that address maps back to the account. -/
theorem C25_reward_mapping_partial (cfg : Cfg) (bank : Bank) (rewards : List (AccId × Nat))
    (hg : (rewards.map Prod.snd).Nodup) (ops : List Op) :
    let s := (run cfg (genesis bank rewards) ops).1
    let l := rewards ++ acceptedMappings (run cfg (genesis bank rewards) ops).2
    (l.map Prod.snd).Nodup ∧
    (∀ a e, s.evmToDeeper.get e = some a ↔ (a, e) ∈ l) ∧
    (∀ a, s.deeperToEvm.get a = (l.reverse.find? (fun p => decide (p.1 = a))).map Prod.snd) ∧
    (∀ a e, s.deeperToEvm.get a = some e → s.evmToDeeper.get e = some a) := by
  have h := run_maps cfg ops _ _ (genesis_maps bank rewards hg)
  refine ⟨h.nodup, h.evm, h.deep, ?_⟩
  intro a e hd
  rw [h.deep a, Option.map_eq_some_iff] at hd
  obtain ⟨p, hp, hp2⟩ := hd
  have hm := List.mem_of_find?_eq_some hp
  rw [List.mem_reverse] at hm
  have hp1 : p.1 = a := by simpa using List.find?_some hp
  rw [h.evm]
  rw [← hp1, ← hp2]
  exact hm

/-- C25: if no account was mapped twice, the two tables are inverse to each other. -/
theorem C25_one_to_one_without_rebinding_partial (cfg : Cfg) (bank : Bank) (rewards : List (AccId × Nat))
    (hg : (rewards.map Prod.snd).Nodup) (ops : List Op)
    (hl : ((rewards ++ acceptedMappings (run cfg (genesis bank rewards) ops).2).map Prod.fst).Nodup)
    (a : AccId) (e : Nat) :
    let s := (run cfg (genesis bank rewards) ops).1
    s.deeperToEvm.get a = some e ↔ s.evmToDeeper.get e = some a := by
  obtain ⟨_, h2, h3, h4⟩ := C25_reward_mapping_partial cfg bank rewards hg ops
  refine ⟨h4 a e, ?_⟩
  intro he
  rw [h2] at he
  rw [h3]
  have hsome : ∃ p, (rewards ++ acceptedMappings (run cfg (genesis bank rewards) ops).2).reverse.find?
      (fun p => decide (p.1 = a)) = some p := by
    rw [← Option.isSome_iff_exists, List.find?_isSome]
    exact ⟨(a, e), by rw [List.mem_reverse]; exact he, by simp⟩
  obtain ⟨p, hp⟩ := hsome
  rw [hp]
  have hm := List.mem_of_find?_eq_some hp
  rw [List.mem_reverse] at hm
  have hp1 : p.1 = a := by simpa using List.find?_some hp
  have : p = (a, e) := List.inj_on_of_nodup_map hl hm he hp1
  rw [this]
  rfl

def anySig : Nat → List Nat → AccId → Bool := fun _ _ _ => true

/-- C25 fails: after an account maps a second address, the first one still maps to it. -/
theorem C25_rebinding_leaves_two_addresses :
    ∃ (ops : List Op) (a : AccId) (e e' : Nat),
      let s := (run exCfg (genesis exBank []) ops).1
      e ≠ e' ∧ s.evmToDeeper.get e = some a ∧ s.evmToDeeper.get e' = some a ∧
      s.deeperToEvm.get a ≠ some e := by
  refine ⟨[.external 1 exBank anySig anySig, .rewardMapping 1 0 [] 77, .rewardMapping 1 1 [] 78], 1, 77, 78, ?_⟩
  decide +kernel

example :
    let r := run exCfg (genesis exBank [(9, 70)]) [.external 1 exBank anySig anySig,
      .rewardMapping 1 0 [] 77, .rewardMapping 2 1 [] 77, .rewardMapping 2 1 [] 78]
    (r.2.map (·.2.2), acceptedMappings r.2, r.1.evmToDeeper.get 70) =
      ([.done, .done, .failed .ethAddressAlreadyMapped, .done], [(1, 77), (2, 78)], some 9) := by
  decide +kernel

/-! ### C61 -/

/-- C61, what holds: a mapping call is accepted only with a signature of the second key over the
nonce and the caller, and for an EVM address that was never mapped before. -/
theorem C61_mapping_authorised_partial (cfg : Cfg) (bank : Bank) (rewards : List (AccId × Nat))
    (hg : (rewards.map Prod.snd).Nodup) (ops : List Op) (a : AccId) (n : Nat) (sig : List Nat) (e : Nat) :
    let s := (run cfg (genesis bank rewards) ops).1
    let tr := (run cfg (genesis bank rewards) ops).2
    (step cfg s (.rewardMapping a n sig e)).2 = .done ↔
      s.verifyNew n sig a = true ∧ e ∉ (rewards ++ acceptedMappings tr).map Prod.snd := by
  intro s tr
  have h := run_maps cfg ops _ _ (genesis_maps bank rewards hg)
  constructor
  · intro hd
    rcases step_cases cfg s (.rewardMapping a n sig e) with ⟨r, hb, hs⟩ | ⟨er, hb, hs⟩
    · simp only [body] at hb
      obtain ⟨s', hr, hs'⟩ := map_ok hb
      obtain ⟨h1, h2, _⟩ := rewardMapping_ok h hr
      exact ⟨h1, h2⟩
    · rw [hs] at hd; cases hd
  · rintro ⟨h1, h2⟩
    have hc : s.evmToDeeper.contains e = false := by
      cases hc : s.evmToDeeper.contains e with
      | false => rfl
      | true =>
        obtain ⟨x, hx⟩ := (FMap.contains_iff _ _).1 hc
        exact absurd (List.mem_map.2 ⟨_, (h.evm x e).1 hx, rfl⟩) h2
    rcases step_cases cfg s (.rewardMapping a n sig e) with ⟨r, hb, hs⟩ | ⟨er, hb, hs⟩
    · simp only [body] at hb
      obtain ⟨s', hr, hs'⟩ := map_ok hb
      rw [hs, ← hs']
    · exfalso
      simp only [body, rewardMapping, h1, hc, Bool.not_true, Bool.false_eq_true, if_false] at hb
      split at hb
      · split at hb <;> cases hb
      · cases hb

/-- C61 fails: the signature covers neither the EVM address nor is its nonce used up. One and the
same signature is accepted for two different EVM addresses. -/
theorem C61_signature_reused :
    ∃ (ops : List Op) (a : AccId) (n : Nat) (sig : List Nat) (e e' : Nat),
      let s := (run exCfg (genesis exBank []) ops).1
      (∀ n' sig' a', s.verifyNew n' sig' a' = true → n' = n ∧ sig' = sig ∧ a' = a) ∧ e ≠ e' ∧
      (step exCfg s (.rewardMapping a n sig e)).2 = .done ∧
      (step exCfg (step exCfg s (.rewardMapping a n sig e)).1 (.rewardMapping a n sig e')).2 = .done := by
  refine ⟨[.external 1 exBank anySig fun n sig a => decide (n = 5 ∧ sig = [1, 2] ∧ a = 1)], 1, 5, [1, 2],
    77, 78, ?_, ?_⟩
  · intro n' sig' a' h
    simpa [run, step, body] using h
  · decide +kernel

end Verif.DeeperNode
