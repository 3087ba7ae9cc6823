import Mathlib.Data.List.Basic
import Mathlib.Data.List.Induction
import Verif.Basic

/-
Pausing calls: pallet-tx-pause (trusted, polkadot-v1.1.0) as configured in runtime/src/lib.rs:276 and
1489-1509, and property C103.
-/

namespace Verif.Pause

/-! ### Model -/

/-- `RuntimeCallNameOf`: names of the pallet and of the call. -/
abbrev Name := String × String

/-- `TxPauseWhitelistedCalls::contains`, runtime/src/lib.rs:1492-1499. -/
def whitelisted (n : Name) : Bool :=
  match n.1 with
  | "Sudo" => true
  | "System" => true
  | _ => false

/-- `ensure_can_pause` of pallet-tx-pause (trusted): never the pallet itself (its name in
`construct_runtime!`, runtime/src/lib.rs:1622), no whitelisted call, no call that is paused already. -/
def canPause (paused : List Name) (n : Name) : Bool :=
  !(n.1 == "TxPause") && !whitelisted n && !paused.contains n

/-- Calls: plain ones, calls that dispatch others with their own origin (`Utility::force_batch`, which goes on
after a failing call; `batch` and `batch_all` stop there or undo everything; trusted), and `Sudo::sudo`.
`pause` and `unpause` are those of pallet-tx-pause. Proxies, multisigs and the scheduler dispatch with the
origin of another account, which has the same filter; they are not followed. -/
inductive Call where
  | plain (n : Name)
  | nest (n : Name) (inner : List Call)
  | bySudo (inner : Call)
  | pause (n : Name)
  | unpause (n : Name)

/-- The name of a call (`get_call_metadata`). -/
def Call.name : Call → Name
  | .plain n => n
  | .nest n _ => n
  | .bySudo _ => ("Sudo", "sudo")
  | .pause _ => ("TxPause", "pause")
  | .unpause _ => ("TxPause", "unpause")

/-- Who calls: root, or a signed account. -/
inductive Origin where
  | root
  | signed (a : AccId)
deriving DecidableEq, Repr

/-- State: the paused calls, the key of pallet-sudo, and the calls run so far with their origins, latest
last. -/
structure State where
  paused : List Name := []
  key : AccId
  ran : List (Origin × Name) := []

/-- `BaseCallFilter = TxPause`, runtime/src/lib.rs:276: signed origins may not use paused calls; root has
no filter. -/
def allows (s : State) (o : Origin) (n : Name) : Bool :=
  match o with
  | .root => true
  | .signed _ => !s.paused.contains n

mutual
/-- Dispatch of a call. A refused call does nothing. `PauseOrigin` and `UnpauseOrigin` are root,
runtime/src/lib.rs:1504-1505. -/
def dispatch (s : State) (o : Origin) (c : Call) : State :=
  if allows s o c.name = false then s
  else
    let s := { s with ran := s.ran ++ [(o, c.name)] }
    match c with
    | .plain _ => s
    | .nest _ l => dispatchAll s o l
    | .bySudo c => if o = .signed s.key then dispatch s .root c else s
    | .pause n => if o = .root ∧ canPause s.paused n = true then { s with paused := s.paused ++ [n] } else s
    | .unpause n => if o = .root ∧ n ∈ s.paused then { s with paused := s.paused.filter (· ≠ n) } else s

def dispatchAll (s : State) (o : Origin) (l : List Call) : State :=
  match l with
  | [] => s
  | c :: l => dispatchAll (dispatch s o c) o l
end

/-- A history of calls. -/
def run (s : State) : List (Origin × Call) → State
  | [] => s
  | (o, c) :: cs => run (dispatch s o c) cs

/-! ### Properties -/

/-- The names which can never be paused. -/
def Essential (n : Name) : Prop := n.1 = "Sudo" ∨ n.1 = "System" ∨ n.1 = "TxPause"

theorem whitelisted_iff (n : Name) : whitelisted n = true ↔ n.1 = "Sudo" ∨ n.1 = "System" := by
  unfold whitelisted
  split
  · rename_i h; simp [h]
  · rename_i h; simp [h]
  · rename_i h1 h2; simp; exact ⟨h1, h2⟩

theorem canPause_iff (l : List Name) (n : Name) : canPause l n = true ↔ ¬ Essential n ∧ n ∉ l := by
  unfold canPause Essential
  have := whitelisted_iff n
  cases h : whitelisted n with
  | false =>
    rw [h] at this
    have h1 : ¬ (n.1 = "Sudo" ∨ n.1 = "System") := fun h' => by cases this.2 h'
    simp only [Bool.not_false, Bool.and_true, Bool.and_eq_true, Bool.not_eq_true', beq_eq_false_iff_ne, ne_eq]
    constructor
    · rintro ⟨h2, h3⟩
      refine ⟨?_, by simpa using h3⟩
      rintro (h' | h' | h')
      · exact h1 (Or.inl h')
      · exact h1 (Or.inr h')
      · exact h2 h'
    · rintro ⟨h2, h3⟩
      exact ⟨fun h' => h2 (Or.inr (Or.inr h')), by simpa using h3⟩
  | true =>
    have h1 := this.1 h
    simp only [Bool.not_true, Bool.and_false, Bool.false_and, Bool.false_eq_true, false_iff]
    rintro ⟨h2, _⟩
    exact h2 (h1.imp id Or.inl)

/-- A call is what root does, or what `sudo` of the key does. -/
def ByRoot (key : AccId) : Origin → Prop
  | .root => True
  | .signed a => a = key

mutual
theorem dispatch_inv (P : State → Prop)
    (hran : ∀ s x, P s → P { s with ran := s.ran ++ [x] })
    (hp : ∀ s n, P s → canPause s.paused n = true → P { s with paused := s.paused ++ [n] })
    (hu : ∀ s n, P s → P { s with paused := s.paused.filter (· ≠ n) })
    (s : State) (o : Origin) (c : Call) (h : P s) : P (dispatch s o c) := by
  cases c with
  | plain n =>
    unfold dispatch; split
    · exact h
    · exact hran _ _ h
  | nest n l =>
    unfold dispatch; split
    · exact h
    · exact dispatchAll_inv P hran hp hu _ o l (hran _ _ h)
  | bySudo c =>
    unfold dispatch; split
    · exact h
    · simp only
      split
      · exact dispatch_inv P hran hp hu _ .root c (hran _ _ h)
      · exact hran _ _ h
  | pause n =>
    unfold dispatch; split
    · exact h
    · simp only
      split
      · rename_i hc; exact hp _ n (hran _ _ h) hc.2
      · exact hran _ _ h
  | unpause n =>
    unfold dispatch; split
    · exact h
    · simp only
      split
      · exact hu _ n (hran _ _ h)
      · exact hran _ _ h
theorem dispatchAll_inv (P : State → Prop)
    (hran : ∀ s x, P s → P { s with ran := s.ran ++ [x] })
    (hp : ∀ s n, P s → canPause s.paused n = true → P { s with paused := s.paused ++ [n] })
    (hu : ∀ s n, P s → P { s with paused := s.paused.filter (· ≠ n) })
    (s : State) (o : Origin) (l : List Call) (h : P s) : P (dispatchAll s o l) := by
  cases l with
  | nil => unfold dispatchAll; exact h
  | cons c l =>
    unfold dispatchAll
    exact dispatchAll_inv P hran hp hu _ o l (dispatch_inv P hran hp hu s o c h)
end

theorem run_inv (P : State → Prop)
    (hran : ∀ s x, P s → P { s with ran := s.ran ++ [x] })
    (hp : ∀ s n, P s → canPause s.paused n = true → P { s with paused := s.paused ++ [n] })
    (hu : ∀ s n, P s → P { s with paused := s.paused.filter (· ≠ n) })
    (s : State) (cs : List (Origin × Call)) (h : P s) : P (run s cs) := by
  induction cs generalizing s with
  | nil => exact h
  | cons c cs ih => exact ih _ (dispatch_inv P hran hp hu s c.1 c.2 h)

/-- C103, essential calls. Whatever was called before, calls of Sudo, System and TxPause are not paused. -/
theorem C103_essential (key : AccId) (cs : List (Origin × Call)) (n : Name) (h : Essential n) :
    n ∉ (run { key := key } cs).paused := by
  refine run_inv (fun s => n ∉ s.paused) (fun s x hs => hs) ?_ ?_ _ cs (by simp)
  · intro s m hs hc
    simp only [List.mem_append, List.mem_singleton, not_or]
    refine ⟨hs, ?_⟩
    rintro rfl
    exact ((canPause_iff _ _).1 hc).1 h
  · intro s m hs
    simp only [List.mem_filter, not_and]
    exact fun hm => absurd hm hs

mutual
theorem paused_keeps (s : State) (o : Origin) (c : Call) :
    (dispatch s o c).key = s.key ∧
    (¬ ByRoot s.key o → (dispatch s o c).paused = s.paused ∧
      ∃ l, (dispatch s o c).ran = s.ran ++ l ∧ ∀ x ∈ l, x.1 = o ∧ x.2 ∉ s.paused) := by
  have key : ∀ n, allows s o n ≠ false → ¬ ByRoot s.key o → n ∉ s.paused := by
    intro n ha hr
    cases o with
    | root => exact absurd trivial hr
    | signed a => simpa [allows] using ha
  have nil : ∃ l, s.ran = s.ran ++ l ∧ ∀ x ∈ l, x.1 = o ∧ x.2 ∉ s.paused := ⟨[], by simp, by simp⟩
  have one : ∀ n, allows s o n ≠ false → ¬ ByRoot s.key o →
      ∃ l, s.ran ++ [(o, n)] = s.ran ++ l ∧ ∀ x ∈ l, x.1 = o ∧ x.2 ∉ s.paused :=
    fun n ha hr => ⟨[(o, n)], rfl, fun x hx => by simp only [List.mem_singleton] at hx; subst hx; exact ⟨rfl, key n ha hr⟩⟩
  have hne : ¬ ByRoot s.key o → o ≠ .root ∧ o ≠ .signed s.key := by
    intro hr
    exact ⟨fun h => hr (by rw [h]; trivial), fun h => hr (by rw [h]; rfl)⟩
  cases c with
  | plain n =>
    unfold dispatch; split
    · exact ⟨rfl, fun _ => ⟨rfl, nil⟩⟩
    · rename_i ha; exact ⟨rfl, fun hr => ⟨rfl, one _ ha hr⟩⟩
  | nest n l =>
    unfold dispatch; split
    · exact ⟨rfl, fun _ => ⟨rfl, nil⟩⟩
    · rename_i ha
      obtain ⟨h1, h2⟩ := pausedAll_keeps { s with ran := s.ran ++ [(o, n)] } o l
      refine ⟨h1, fun hr => ?_⟩
      obtain ⟨h3, l', h4, h5⟩ := h2 hr
      refine ⟨h3, (o, n) :: l', ?_, ?_⟩
      · simp only at h4
        show _ = s.ran ++ _
        simp only [Call.name]
        rw [h4]; simp
      · intro x hx
        rcases List.mem_cons.1 hx with rfl | hx
        · exact ⟨rfl, key _ ha hr⟩
        · exact h5 x hx
  | bySudo c =>
    unfold dispatch; split
    · exact ⟨rfl, fun _ => ⟨rfl, nil⟩⟩
    · rename_i ha
      simp only
      by_cases hk : o = .signed s.key
      · rw [if_pos hk]
        refine ⟨(paused_keeps { s with ran := s.ran ++ [(o, Call.name (.bySudo c))] } .root c).1, fun hr => ?_⟩
        exact absurd hk (hne hr).2
      · rw [if_neg hk]
        exact ⟨rfl, fun hr => ⟨rfl, one _ ha hr⟩⟩
  | pause n =>
    unfold dispatch; split
    · exact ⟨rfl, fun _ => ⟨rfl, nil⟩⟩
    · rename_i ha
      simp only
      split
      · rename_i hc
        exact ⟨rfl, fun hr => absurd hc.1 (hne hr).1⟩
      · exact ⟨rfl, fun hr => ⟨rfl, one _ ha hr⟩⟩
  | unpause n =>
    unfold dispatch; split
    · exact ⟨rfl, fun _ => ⟨rfl, nil⟩⟩
    · rename_i ha
      simp only
      split
      · rename_i hc
        exact ⟨rfl, fun hr => absurd hc.1 (hne hr).1⟩
      · exact ⟨rfl, fun hr => ⟨rfl, one _ ha hr⟩⟩
theorem pausedAll_keeps (s : State) (o : Origin) (l : List Call) :
    (dispatchAll s o l).key = s.key ∧
    (¬ ByRoot s.key o → (dispatchAll s o l).paused = s.paused ∧
      ∃ l', (dispatchAll s o l).ran = s.ran ++ l' ∧ ∀ x ∈ l', x.1 = o ∧ x.2 ∉ s.paused) := by
  cases l with
  | nil =>
    unfold dispatchAll
    exact ⟨rfl, fun _ => ⟨rfl, [], by simp, by simp⟩⟩
  | cons c l =>
    unfold dispatchAll
    obtain ⟨h1, h2⟩ := paused_keeps s o c
    obtain ⟨h3, h4⟩ := pausedAll_keeps (dispatch s o c) o l
    refine ⟨h3.trans h1, fun hr => ?_⟩
    obtain ⟨h5, l1, h6, h7⟩ := h2 hr
    obtain ⟨h8, l2, h9, h10⟩ := h4 (by rw [h1]; exact hr)
    refine ⟨h8.trans h5, l1 ++ l2, by rw [h9, h6]; simp, ?_⟩
    intro x hx
    rcases List.mem_append.1 hx with hx | hx
    · exact h7 x hx
    · rw [h5] at h10; exact h10 x hx
end

/-- C103, the filter. A signed account other than the sudo key never changes what is paused, and nothing it
calls, at any depth, runs while paused; a call which is not paused does run. -/
theorem C103_filter (s : State) (a : AccId) (c : Call) :
    (a ≠ s.key → (dispatch s (.signed a) c).paused = s.paused ∧
      ∃ l, (dispatch s (.signed a) c).ran = s.ran ++ l ∧ ∀ x ∈ l, x.1 = .signed a ∧ x.2 ∉ s.paused) ∧
    (∀ n, n ∉ s.paused → (dispatch s (.signed a) (.plain n)).ran = s.ran ++ [(.signed a, n)]) ∧
    (∀ n, n ∈ s.paused → dispatch s (.signed a) (.plain n) = s) := by
  refine ⟨fun h => (paused_keeps s (.signed a) c).2 h, ?_, ?_⟩
  · intro n hn
    unfold dispatch
    simp [allows, Call.name, hn]
  · intro n hn
    unfold dispatch
    simp [allows, Call.name, hn]

theorem sudo_paused {s : State} (hs : ("Sudo", "sudo") ∉ s.paused) (c : Call) :
    dispatch s (.signed s.key) (.bySudo c) =
      dispatch { s with ran := s.ran ++ [(.signed s.key, ("Sudo", "sudo"))] } .root c := by
  conv_lhs => unfold dispatch
  have ha : allows s (.signed s.key) (Call.bySudo c).name = true := by simp [allows, Call.name, hs]
  rw [if_neg (by rw [ha]; decide)]
  simp [Call.name]

/-- C103, control. In every reachable state root itself, and the sudo key, can pause every call that is not
essential and not paused yet, and can lift every pause; nothing else gets paused or released. -/
theorem C103_control (key : AccId) (cs : List (Origin × Call)) (n : Name) :
    let s := run { key := key } cs
    (∀ m, m ∈ (dispatch s .root (.pause n)).paused ↔ m ∈ s.paused ∨ (m = n ∧ ¬ Essential n)) ∧
    (∀ m, m ∈ (dispatch s .root (.unpause n)).paused ↔ m ∈ s.paused ∧ m ≠ n) ∧
    (dispatch s (.signed s.key) (.bySudo (.pause n))).paused = (dispatch s .root (.pause n)).paused ∧
    (dispatch s (.signed s.key) (.bySudo (.unpause n))).paused = (dispatch s .root (.unpause n)).paused := by
  intro s
  have hs : ("Sudo", "sudo") ∉ s.paused := C103_essential key cs _ (Or.inl rfl)
  refine ⟨?_, ?_, ?_, ?_⟩
  · intro m
    unfold dispatch
    simp only [allows, Bool.true_eq_false, if_false, true_and]
    have hc := canPause_iff s.paused n
    by_cases h : canPause s.paused n = true
    · rw [if_pos h]
      simp only [List.mem_append, List.mem_singleton]
      exact ⟨fun h' => h'.imp id fun e => ⟨e, (hc.1 h).1⟩, fun h' => h'.imp id fun e => e.1⟩
    · rw [if_neg h]
      refine ⟨Or.inl, ?_⟩
      rintro (h' | ⟨rfl, h'⟩)
      · exact h'
      · exact Classical.byContradiction fun hm => h (hc.2 ⟨h', hm⟩)
  · intro m
    unfold dispatch
    simp only [allows, Bool.true_eq_false, if_false, true_and]
    by_cases h : n ∈ s.paused
    · rw [if_pos h]
      simp [List.mem_filter]
    · rw [if_neg h]
      refine ⟨fun h' => ⟨h', ?_⟩, fun h' => h'.1⟩
      rintro rfl
      exact h h'
  · rw [sudo_paused hs (.pause n)]
    simp only [dispatch, allows]
    simp
    split <;> rfl
  · rw [sudo_paused hs (.unpause n)]
    simp only [dispatch, allows]
    simp
    split <;> rfl

/-- The comment on the whitelist (runtime/src/lib.rs:1491) names `Balances::transfer_keep_alive` as the one
call that cannot be paused; in fact it can. -/
theorem C103_transfers_pausable :
    (dispatch { key := 1 } .root (.pause ("Balances", "transfer_keep_alive"))).paused =
      [("Balances", "transfer_keep_alive")] := by
  simp [dispatch, allows, canPause, whitelisted]

/-- The sudo key pauses transfers: account 2 cannot transfer any more, not even in a batch; remarks still
work, root's transfer too; after the pause is lifted account 2 can transfer again. -/
example :
    let t : Name := ("Balances", "transfer")
    let s := run { key := 1 } [(.signed 2, .bySudo (.pause t)), (.signed 1, .bySudo (.pause t)),
      (.signed 1, .bySudo (.pause ("System", "remark")))]
    s.paused = [t] ∧
    (run { s with ran := [] } [(.signed 2, .plain t), (.signed 2, .nest ("Utility", "force_batch") [.plain t, .plain ("System", "remark")]),
      (.root, .plain t), (.root, .unpause t), (.signed 2, .plain t)]).ran =
      [(.signed 2, ("Utility", "force_batch")), (.signed 2, ("System", "remark")), (.root, t), (.root, ("TxPause", "unpause")),
        (.signed 2, t)] := by
  simp [run, dispatch, dispatchAll, allows, canPause, whitelisted, Call.name]

end Verif.Pause
