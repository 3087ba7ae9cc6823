import Verif.RewardsProofs
import Mathlib.Data.List.Sort
import Mathlib.Data.List.Perm.Subperm

/-
C47: elections respect the configured count, the whitelist and the rotation.
-/

namespace Verif.Delegation

open Verif

/-- `order` lists the validators, each once, in some order: what iterating the storage map yields. -/
def StorageOrder (s : State) (order : List AccId) : Prop := order.Nodup ∧ ∀ v, v ∈ order ↔ s.led.validators.contains v = true

/-- An account that may be elected: a validator, on the whitelist unless that is empty. -/
def Eligible (s : State) (v : AccId) : Prop := s.led.validators.contains v = true ∧ (s.whitelist = [] ∨ v ∈ s.whitelist)

/-- Number of accounts that may be elected. -/
def eligibleCount (s : State) : Nat := (s.led.validators.keys.filter fun v => decide (s.whitelist = [] ∨ v ∈ s.whitelist)).length

/-- One more than the era of an account's last election, as recorded; 0 if there is none. -/
def lastElected (s : State) (v : AccId) : Nat :=
  match s.candidates.get v with
  | none => 0
  | some c => c.electedEra

/-- `w` has a stronger claim to be elected than `v`: elected longer ago, or equally long ago and with more delegators. -/
def Precedes (s : State) (w v : AccId) : Prop :=
  lastElected s w < lastElected s v ∨
    (lastElected s w = lastElected s v ∧ (delegatorsOf s v).length < (delegatorsOf s w).length)

/-! ### Helper lemmas -/

theorem trusted_iff (s : State) (v : AccId) : trusted s v = decide (s.whitelist = [] ∨ v ∈ s.whitelist) := by
  unfold trusted
  by_cases h1 : s.whitelist = [] <;> by_cases h2 : v ∈ s.whitelist <;> simp [h1, h2]

theorem length_insertEntry (x : Entry) (l : List Entry) : (insertEntry x l).length = l.length + 1 := by
  induction l with
  | nil => rfl
  | cons y l ih =>
    unfold insertEntry
    split
    · rfl
    · simp [ih]

theorem length_sortEntries (l : List Entry) : (sortEntries l).length = l.length := by
  induction l with
  | nil => rfl
  | cons x l ih => simp [sortEntries, length_insertEntry, ih]

theorem le_total (a b : Entry) (h : a.le b = false) : b.le a = true := by
  unfold Entry.le at *
  simp only [Bool.or_eq_false_iff, Bool.and_eq_false_iff, decide_eq_false_iff_not, Bool.or_eq_true, Bool.and_eq_true, decide_eq_true_eq] at *
  omega

theorem le_trans' (a b c : Entry) (h1 : a.le b = true) (h2 : b.le c = true) : a.le c = true := by
  unfold Entry.le at *
  simp only [Bool.or_eq_true, Bool.and_eq_true, decide_eq_true_eq] at *
  omega

theorem sorted_insertEntry (x : Entry) (l : List Entry) (h : l.Pairwise fun a b => a.le b = true) :
    (insertEntry x l).Pairwise fun a b => a.le b = true := by
  induction l with
  | nil => simp [insertEntry]
  | cons y l ih =>
    unfold insertEntry
    obtain ⟨h1, h2⟩ := List.pairwise_cons.mp h
    split
    · rename_i hxy
      refine List.pairwise_cons.mpr ⟨fun z hz => ?_, h⟩
      rcases List.mem_cons.mp hz with rfl | hz
      · exact hxy
      · exact le_trans' _ _ _ hxy (h1 z hz)
    · rename_i hxy
      refine List.pairwise_cons.mpr ⟨fun z hz => ?_, ih h2⟩
      rcases (mem_insertEntry x z l).mp hz with rfl | hz
      · exact le_total _ _ (by simpa using hxy)
      · exact h1 z hz

theorem sorted_sortEntries (l : List Entry) : (sortEntries l).Pairwise fun a b => a.le b = true := by
  induction l with
  | nil => exact .nil
  | cons x l ih => exact sorted_insertEntry x _ ih

theorem take_le {l : List Entry} (h : l.Pairwise fun a b => a.le b = true) (n : Nat) {a b : Entry} (ha : a ∈ l.take n) (hb : b ∈ l)
    (hn : b ∉ l.take n) : a.le b = true := by
  rw [← List.take_append_drop n l, List.pairwise_append] at h
  rw [← List.take_append_drop n l] at hb
  rcases List.mem_append.mp hb with hb | hb
  · exact absurd hb hn
  · exact h.2.2 a ha b hb

theorem enterEra_frame (s : State) (era : Nat) : (enterEra s era).whitelist = s.whitelist ∧ (enterEra s era).candidates = s.candidates ∧
    (enterEra s era).minValidators = s.minValidators ∧ (enterEra s era).validatorCount = s.validatorCount ∧
    (enterEra s era).led.bonded = s.led.bonded ∧ (enterEra s era).led.ledgers = s.led.ledgers := by
  unfold enterEra
  simp only
  split <;> exact ⟨rfl, rfl, rfl, rfl, rfl, rfl⟩

theorem entries_congr {s t : State} (h1 : t.whitelist = s.whitelist) (h2 : t.candidates = s.candidates) (order : List AccId) :
    entries t order = entries s order := by
  unfold entries trusted
  rw [h1, h2]

theorem mem_entries (s : State) (order : List AccId) (x : Entry) :
    x ∈ entries s order ↔ x.who ∈ order ∧ (s.whitelist = [] ∨ x.who ∈ s.whitelist) ∧
      x.delegators = (delegatorsOf s x.who).length ∧ x.electedEra = lastElected s x.who := by
  have key : ∀ v, ((s.candidates.get v).getD Candidate.empty).delegators.length = (delegatorsOf s v).length ∧
      ((s.candidates.get v).getD Candidate.empty).electedEra = lastElected s v := by
    intro v
    unfold delegatorsOf lastElected
    cases s.candidates.get v <;> exact ⟨rfl, rfl⟩
  unfold entries
  simp only [List.mem_map, List.mem_filter, trusted_iff, decide_eq_true_eq]
  constructor
  · rintro ⟨v, ⟨h1, h2⟩, rfl⟩
    exact ⟨h1, h2, (key v).1, (key v).2⟩
  · rintro ⟨h1, h2, h3, h4⟩
    refine ⟨x.who, ⟨h1, h2⟩, ?_⟩
    obtain ⟨w, d, e⟩ := x
    simp only at h3 h4 ⊢
    rw [(key w).1, (key w).2, h3, h4]

theorem entries_length {s : State} {order : List AccId} (ho : StorageOrder s order) : (entries s order).length = eligibleCount s := by
  have h1 : (entries s order).length = (order.filter (trusted s)).length := by
    rw [← entries_who, List.length_map]
  have h2 : order.Perm s.led.validators.keys := by
    refine (List.perm_ext_iff_of_nodup ho.1 s.led.validators.nodup).mpr fun v => ?_
    show v ∈ order ↔ v ∈ s.led.validators.keys
    rw [ho.2, FMap.mem_keys_iff, FMap.contains_iff]
  rw [h1, eligibleCount]
  have h3 : trusted s = fun v => decide (s.whitelist = [] ∨ v ∈ s.whitelist) := funext (trusted_iff s)
  rw [h3]
  exact (h2.filter _).length_eq

theorem lastElected_mark (s : State) (era : Nat) (l : List AccId) : ∀ (m : FMap AccId Candidate) (v : AccId),
    (((l.foldl (markElected era) m).get v).getD .empty).electedEra = if v ∈ l then era + 1 else ((m.get v).getD .empty).electedEra := by
  induction l with
  | nil => intro m v; rfl
  | cons w l ih =>
    intro m v
    rw [List.foldl_cons, ih]
    by_cases h : v ∈ l
    · simp [h]
    · by_cases e : v = w
      · subst e
        simp [h, markElected]
      · simp [h, e, markElected, FMap.get_insert_ne]

theorem lastElected_eq (s : State) (v : AccId) : lastElected s v = ((s.candidates.get v).getD .empty).electedEra := by
  unfold lastElected
  cases s.candidates.get v <;> rfl

theorem stakers_fold (era : Nat) (f : AccId → Slashing.Exposure) (l : List AccId) : ∀ (m : FMap (Nat × AccId) Slashing.Exposure) (v : AccId),
    v ∈ l → (l.foldl (fun m v => m.insert (era, v) (f v)) m).get (era, v) = some (f v) := by
  have keep : ∀ (l : List AccId) (m : FMap (Nat × AccId) Slashing.Exposure) (v : AccId), m.get (era, v) = some (f v) →
      (l.foldl (fun m v => m.insert (era, v) (f v)) m).get (era, v) = some (f v) := by
    intro l
    induction l with
    | nil => intro m v h; exact h
    | cons w l ih =>
      intro m v h
      refine ih _ v ?_
      rw [FMap.get_insert]
      split
      · rename_i e; rw [(Prod.mk.inj e).2]
      · exact h
  induction l with
  | nil => intro m v h; cases h
  | cons w l ih =>
    intro m v h
    rw [List.foldl_cons]
    rcases List.mem_cons.mp h with rfl | h
    · exact keep l _ v (FMap.get_insert_self _ _ _)
    · exact ih _ v h

/-! ### C47 -/

/-- C47: planning an era, whatever the order in which storage lists the validators. With fewer eligible validators
than the minimum (at least one) nothing is elected. Otherwise as many as configured are elected, or all eligible
ones if there are fewer; all of them are eligible, without duplicates; no eligible one left out precedes an elected
one. The elected ones are stored as the validators of the era and recorded as elected in it. -/
theorem C47_election (cfg : Cfg) (s : State) (order : List AccId) (ho : StorageOrder s order) :
    let r := step cfg s (.newEra order)
    let era := match s.led.era with | none => 0 | some e => e + 1
    r.1.led.era = some era ∧
    if eligibleCount s < max s.minValidators 1 then
      r.2 = .elected era none ∧ r.1.candidates = s.candidates
    else ∃ l, r.2 = .elected era (some l) ∧ l.Nodup ∧ l.length = min s.validatorCount (eligibleCount s) ∧
      (∀ v ∈ l, Eligible s v) ∧
      (∀ v w, v ∈ l → w ∉ l → Eligible s w → ¬ Precedes s w v) ∧
      r.1.erasValidators.get era = some l ∧
      ∀ v, lastElected r.1 v = if v ∈ l then era + 1 else lastElected s v := by
  intro r era
  have hera : era = nextEra s := rfl
  clear_value era
  subst hera
  have hr : r = newEra s order := rfl
  rw [hr]
  clear hr r
  obtain ⟨f1, f2, f3, f4, -, -⟩ := enterEra_frame s (nextEra s)
  have hes := entries_congr f1 f2 order
  have hlen := entries_length ho
  have hel : (elect (enterEra s (nextEra s)) (nextEra s) order).1.led.era = some (nextEra s) := by
    have h1 : (enterEra s (nextEra s)).led.era = some (nextEra s) := by
      unfold enterEra; simp only; split <;> rfl
    rw [← h1]
    unfold elect
    simp only
    split <;> rfl
  unfold newEra
  simp only
  refine ⟨by
    rw [← hel]
    cases (elect (enterEra s (nextEra s)) (nextEra s) order).2 <;> rfl, ?_⟩
  split
  · rename_i hlt
    have he : elect (enterEra s (nextEra s)) (nextEra s) order = (enterEra s (nextEra s), none) := by
      unfold elect
      simp only
      rw [if_pos (by rw [hes, f3, hlen]; exact hlt)]
    rw [he]
    exact ⟨rfl, f2⟩
  · rename_i hge
    have hge : ¬ (entries (enterEra s (nextEra s)) order).length < max (enterEra s (nextEra s)).minValidators 1 := by
      rw [hes, f3, hlen]; exact hge
    have he2 : (elect (enterEra s (nextEra s)) (nextEra s) order).2 = some (((sortEntries (entries s order)).take s.validatorCount).map Entry.who) := by
      unfold elect
      simp only
      rw [if_neg hge, hes, f4]
    have he1 : (elect (enterEra s (nextEra s)) (nextEra s) order).1.candidates =
        (((sortEntries (entries s order)).take s.validatorCount).map Entry.who).foldl (markElected (nextEra s)) s.candidates := by
      unfold elect
      simp only
      rw [if_neg hge, hes, f4, f2]
    rw [he2]
    refine ⟨_, rfl, ?_, ?_, ?_, ?_, ?_, ?_⟩
    · rw [List.map_take]
      refine (nodup_sortEntries _ ?_).sublist (List.take_sublist _ _)
      rw [entries_who]
      exact ho.1.filter _
    · rw [List.length_map, List.length_take, length_sortEntries, hlen]
    · intro v hv
      obtain ⟨x, hx, rfl⟩ := List.mem_map.mp hv
      have := (mem_sortEntries x _).mp (List.mem_of_mem_take hx)
      obtain ⟨h1, h2, _⟩ := (mem_entries s order x).mp this
      exact ⟨(ho.2 _).mp h1, h2⟩
    · intro v w hv hw hel
      obtain ⟨x, hx, rfl⟩ := List.mem_map.mp hv
      have hx' := (mem_sortEntries x _).mp (List.mem_of_mem_take hx)
      obtain ⟨_, _, h3, h4⟩ := (mem_entries s order x).mp hx'
      have hy : (⟨w, (delegatorsOf s w).length, lastElected s w⟩ : Entry) ∈ entries s order :=
        (mem_entries s order _).mpr ⟨(ho.2 w).mpr hel.1, hel.2, rfl, rfl⟩
      have hle := take_le (sorted_sortEntries (entries s order)) s.validatorCount hx ((mem_sortEntries _ _).mpr hy)
        (fun h => hw (List.mem_map.mpr ⟨_, h, rfl⟩))
      unfold Entry.le at hle
      simp only [Bool.or_eq_true, Bool.and_eq_true, decide_eq_true_eq, h3, h4] at hle
      unfold Precedes
      omega
    · exact FMap.get_insert_self _ _ _
    · intro v
      rw [lastElected_eq, lastElected_eq]
      simp only [storeElected]
      rw [he1]
      exact lastElected_mark s _ _ _ v

/-- C47: the exposure recorded for an elected validator is its active stake, all of it its own; its delegators are
listed if some eligible validator was left out. -/
theorem C47_exposure (cfg : Cfg) (s : State) (order : List AccId) (ho : StorageOrder s order) (era : Nat) (l : List AccId)
    (he : (step cfg s (.newEra order)).2 = .elected era (some l)) (v : AccId) (hv : v ∈ l) :
    ∃ x, (step cfg s (.newEra order)).1.stakers.get (era, v) = some x ∧ x.own = x.total ∧
      x.total = (match s.led.bonded.get v with
        | none => 0
        | some c => match s.led.ledgers.get c with
          | none => 0
          | some g => g.active) ∧
      x.others = if s.validatorCount < eligibleCount s then delegatorsOf s v else [] := by
  obtain ⟨f1, f2, f3, f4, f5, f6⟩ := enterEra_frame s (nextEra s)
  have hes := entries_congr f1 f2 order
  have hlen := entries_length ho
  have hr : step cfg s (.newEra order) = newEra s order := rfl
  rw [hr] at he ⊢
  unfold newEra at he ⊢
  simp only at he ⊢
  injection he with h1 h2
  subst h1
  rw [h2]
  simp only [storeElected]
  unfold elect at h2 ⊢
  simp only at h2 ⊢
  by_cases hlt : (entries (enterEra s (nextEra s)) order).length < max (enterEra s (nextEra s)).minValidators 1
  · rw [if_pos hlt] at h2; cases h2
  · rw [if_neg hlt] at h2 ⊢
    simp only [Option.some.injEq] at h2
    simp only [h2]
    refine ⟨_, stakers_fold (nextEra s) _ l _ v hv, rfl, ?_, ?_⟩
    · unfold exposureOf
      simp only [f5, f6]
      cases h1 : s.led.bonded.get v with
      | none => rfl
      | some c =>
        simp only [Option.bind_some]
        cases h2 : s.led.ledgers.get c <;> rfl
    · unfold exposureOf
      simp only [hes, hlen, f4, f2, decide_eq_true_eq]
      have h3 := members_mark (nextEra s) l s.candidates v
      unfold members at h3
      rw [h3]
      have h4 := delegatorsOf_eq s v
      unfold members at h4
      rw [← h4]

/-- Three eligible validators of four (4 is not on the list), two of them are elected: 3 has never been elected,
2 has more delegators than 1. In the next era 1 comes first. -/
def exElection : State :=
  let v := fun (m : FMap AccId (Nat × Bool)) (a : AccId) => m.insert a (0, false)
  { (run exCfg (genesis exBank 10) []).1 with
    led := { (genesis exBank 10).led with validators := [1, 2, 3, 4].foldl v ∅, era := some 6 },
    candidates := (FMap.insert (FMap.insert (∅ : FMap AccId Candidate) 1 ⟨[7], 5⟩) 2 ⟨[8, 9], 5⟩).insert 4 ⟨[5], 0⟩,
    whitelist := [3, 2, 1], validatorCount := 2, minValidators := 3 }

theorem exElection_order : StorageOrder exElection [3, 1, 4, 2] := by
  refine ⟨by decide, fun v => ?_⟩
  have : exElection.led.validators.contains v = (decide (v = 4) || (decide (v = 3) || (decide (v = 2) || decide (v = 1)))) := by
    simp only [exElection, List.foldl, FMap.contains, FMap.get_insert]
    by_cases h4 : v = 4 <;> by_cases h3 : v = 3 <;> by_cases h2 : v = 2 <;> by_cases h1 : v = 1 <;> simp [h1, h2, h3, h4]
  rw [this]
  simp only [List.mem_cons, List.not_mem_nil, or_false, Bool.or_eq_true, decide_eq_true_eq]
  tauto

/-- The result of an election. -/
def Out.electedList : Out → Option (List AccId)
  | .elected _ l => l
  | _ => none

example :
    let r := step exCfg exElection (.newEra [3, 1, 4, 2])
    r.2.electedList = some [3, 2] ∧ (step exCfg r.1 (.newEra [1, 2, 3, 4])).2.electedList = some [1, 2] ∧
    (step exCfg { exElection with minValidators := 4 } (.newEra [3, 1, 4, 2])).2.electedList = none := by
  decide +kernel

end Verif.Delegation
