import Verif.Basic

/-!
# The upgrade of the device registry: C118

Source: `pallets/deeper-node/src/migration.rs`, part of the migrations of the runtime (runtime/src/lib.rs:1694-1703).
The storage item `DeviceInfo` is modelled as bytes, because the upgrade is about their layout: old entries contain an IP
address which new ones do not have.

Trusted (parity-scale-codec, frame-support): the encodings of 32-byte accounts, byte vectors and 32-bit numbers;
`StorageMap::translate` visits every entry once and leaves entries alone which do not decode; trailing bytes are ignored
by the decoder.
-/

namespace Verif.NodeUpgrade

open Verif

abbrev Bytes := List Nat

/-! ### Encoding (parity-scale-codec) -/

/-- `k` bytes of a number, lowest first (SCALE, used by pallets/deeper-node/src/migration.rs:13-19). -/
def le : Nat → Nat → Bytes
  | 0, _ => []
  | k + 1, n => n % 256 :: le k (n / 256)

/-- The number of some bytes, lowest first (SCALE, used by pallets/deeper-node/src/migration.rs:13-19). -/
def unle : Bytes → Nat
  | [] => 0
  | b :: s => b + 256 * unle s

/-- Reading `k` bytes (SCALE, used by pallets/deeper-node/src/migration.rs:13-19). -/
def take (k : Nat) (s : Bytes) : Option (Bytes × Bytes) := if s.length < k then none else some (s.take k, s.drop k)

/-- `Compact<u32>` (SCALE, used for the lengths in pallets/deeper-node/src/migration.rs:16-17). -/
def compact (n : Nat) : Bytes :=
  if n < 2 ^ 6 then [n * 4]
  else if n < 2 ^ 14 then le 2 (n * 4 + 1)
  else if n < 2 ^ 30 then le 4 (n * 4 + 2)
  else 3 :: le 4 n

/-- Reading a `Compact<u32>`; numbers which have a shorter encoding are refused (SCALE, used for the lengths in
pallets/deeper-node/src/migration.rs:16-17). -/
def uncompact : Bytes → Option (Nat × Bytes)
  | [] => none
  | p :: s =>
    if p % 4 = 0 then some (p / 4, s)
    else if p % 4 = 1 then
      match take 1 s with
      | none => none
      | some (x, r) => if 2 ^ 6 ≤ unle (p :: x) / 4 then some (unle (p :: x) / 4, r) else none
    else if p % 4 = 2 then
      match take 3 s with
      | none => none
      | some (x, r) => if 2 ^ 14 ≤ unle (p :: x) / 4 then some (unle (p :: x) / 4, r) else none
    else if p = 3 then
      match take 4 s with
      | none => none
      | some (x, r) => if 2 ^ 30 ≤ unle x then some (unle x, r) else none
    else none

/-- A byte vector (SCALE, used by pallets/deeper-node/src/migration.rs:16-17). -/
def vec (b : Bytes) : Bytes := compact b.length ++ b

/-- Reading a byte vector (SCALE, used by pallets/deeper-node/src/migration.rs:16-17). -/
def unvec (s : Bytes) : Option (Bytes × Bytes) :=
  match uncompact s with
  | none => none
  | some (n, r) => take n r

/-! ### Entries -/

/-- `OldNode` (pallets/deeper-node/src/migration.rs:13-19). -/
structure OldNode where
  account : Bytes
  ipv4 : Bytes
  country : Bytes
  expire : Nat
  deriving DecidableEq, Repr

/-- `Node` (pallets/deeper-node/src/lib.rs:42-48). -/
structure Node where
  account : Bytes
  country : Bytes
  expire : Nat
  deriving DecidableEq, Repr

/-- `OldNode::encode` (pallets/deeper-node/src/migration.rs:13). -/
def OldNode.encode (o : OldNode) : Bytes := o.account ++ vec o.ipv4 ++ vec o.country ++ le 4 o.expire

/-- `Node::encode` (pallets/deeper-node/src/lib.rs:43). -/
def Node.encode (n : Node) : Bytes := n.account ++ vec n.country ++ le 4 n.expire

/-- `OldNode::decode` (pallets/deeper-node/src/migration.rs:13). -/
def decodeOld (s : Bytes) : Option OldNode :=
  match take 32 s with
  | none => none
  | some (a, s) => match unvec s with
    | none => none
    | some (i, s) => match unvec s with
      | none => none
      | some (c, s) => match take 4 s with
        | none => none
        | some (e, _) => some ⟨a, i, c, unle e⟩

/-- `Node::decode` (pallets/deeper-node/src/lib.rs:43). -/
def decodeNode (s : Bytes) : Option Node :=
  match take 32 s with
  | none => none
  | some (a, s) => match unvec s with
    | none => none
    | some (c, s) => match take 4 s with
      | none => none
      | some (e, _) => some ⟨a, c, unle e⟩

/-! ### The upgrade -/

/-- The version of the pallet in storage, and the entries of `DeviceInfo` (pallets/deeper-node/src/lib.rs:95-98,
111-118). -/
structure State where
  version : Nat
  devices : AccId → Option Bytes

/-- The closure of `translate` (pallets/deeper-node/src/migration.rs:30-38). -/
def upgraded (o : OldNode) : Node := ⟨o.account, o.country, o.expire⟩

/-- `translate` of one entry (pallets/deeper-node/src/migration.rs:29-40). -/
def translate (s : Bytes) : Bytes :=
  match decodeOld s with
  | none => s
  | some o => (upgraded o).encode

/-- `STORAGE_VERSION` (pallets/deeper-node/src/lib.rs:95). -/
def currentVersion : Nat := 1

/-- `on_runtime_upgrade` (pallets/deeper-node/src/migration.rs:24-57). -/
def onRuntimeUpgrade (s : State) : State :=
  if s.version = 0 ∧ currentVersion = 1 then
    { version := currentVersion, devices := fun a => (s.devices a).map translate }
  else s

/-- What the runtime does to the entries otherwise: it writes and deletes devices in the new layout
(pallets/deeper-node/src/lib.rs:290-500, seen as bytes). -/
inductive Op where
  | write (a : AccId) (n : Node)
  | remove (a : AccId)
  | upgrade

/-- One operation (pallets/deeper-node/src/lib.rs:290-500, migration.rs:24-57). -/
def step (s : State) : Op → State
  | .write a n => { s with devices := fun b => if b = a then some n.encode else s.devices b }
  | .remove a => { s with devices := fun b => if b = a then none else s.devices b }
  | .upgrade => onRuntimeUpgrade s

/-- A history. -/
def run (s : State) (ops : List Op) : State := ops.foldl step s

/-! ### Specification -/

/-- What can be in an entry: accounts have 32 bytes, blocks 32 bits, vectors a length of 32 bits. -/
structure OldNode.Fits (o : OldNode) : Prop where
  account : o.account.length = 32
  ipv4 : o.ipv4.length < 2 ^ 32
  country : o.country.length < 2 ^ 32
  expire : o.expire < 2 ^ 32

/-- The same for new entries. -/
structure Node.Fits (n : Node) : Prop where
  account : n.account.length = 32
  country : n.country.length < 2 ^ 32
  expire : n.expire < 2 ^ 32

/-- The registry as the runtime reads it. -/
def readDevice (s : State) (a : AccId) : Option Node := (s.devices a).bind decodeNode

/-! ### Encodings can be read back -/

theorem le_length (k n : Nat) : (le k n).length = k := by
  induction k generalizing n with
  | zero => rfl
  | succ k ih => simp [le, ih]

theorem unle_le (k : Nat) : ∀ n, n < 256 ^ k → unle (le k n) = n := by
  induction k with
  | zero => intro n h; simp only [Nat.pow_zero] at h; simp only [le, unle]; omega
  | succ k ih =>
    intro n h
    have : n / 256 < 256 ^ k := by
      rw [Nat.div_lt_iff_lt_mul (by decide)]
      rwa [Nat.pow_succ] at h
    simp only [le, unle, ih _ this]
    omega

theorem take_append (b r : Bytes) : take b.length (b ++ r) = some (b, r) := by
  unfold take
  rw [if_neg (by simp)]
  simp

theorem take_of_length {k : Nat} {b : Bytes} (h : b.length = k) (r : Bytes) : take k (b ++ r) = some (b, r) := by
  rw [← h]; exact take_append b r

theorem take_le (k n : Nat) (r : Bytes) : take k (le k n ++ r) = some (le k n, r) := take_of_length (le_length k n) r

theorem uncompact_compact (n : Nat) (h : n < 2 ^ 32) (r : Bytes) : uncompact (compact n ++ r) = some (n, r) := by
  unfold compact
  split
  · simp only [List.cons_append, List.nil_append, uncompact, Nat.mul_mod_left, if_true]
    rw [Nat.mul_div_cancel _ (by decide)]
  · split
    · rename_i h1 h2
      have e : le 2 (n * 4 + 1) = (n * 4 + 1) % 256 :: le 1 ((n * 4 + 1) / 256) := rfl
      have hu : unle ((n * 4 + 1) % 256 :: le 1 ((n * 4 + 1) / 256)) = n * 4 + 1 := by
        rw [← e]; exact unle_le 2 _ (by omega)
      rw [e, List.cons_append]
      simp only [uncompact]
      rw [if_neg (by omega), if_pos (by omega), take_le]
      simp only [hu]
      rw [if_pos (by omega), show (n * 4 + 1) / 4 = n by omega]
    · split
      · rename_i h1 h2 h3
        have e : le 4 (n * 4 + 2) = (n * 4 + 2) % 256 :: le 3 ((n * 4 + 2) / 256) := rfl
        have hu : unle ((n * 4 + 2) % 256 :: le 3 ((n * 4 + 2) / 256)) = n * 4 + 2 := by
          rw [← e]; exact unle_le 4 _ (by omega)
        rw [e, List.cons_append]
        simp only [uncompact]
        rw [if_neg (by omega), if_neg (by omega), if_pos (by omega), take_le]
        simp only [hu]
        rw [if_pos (by omega), show (n * 4 + 2) / 4 = n by omega]
      · rename_i h1 h2 h3
        rw [List.cons_append]
        simp only [uncompact]
        rw [if_neg (by decide), if_neg (by decide), if_neg (by decide), if_pos trivial, take_le]
        simp only [unle_le 4 n (by omega)]
        rw [if_pos (by omega)]

theorem unvec_vec (b r : Bytes) (h : b.length < 2 ^ 32) : unvec (vec b ++ r) = some (b, r) := by
  unfold unvec vec
  rw [List.append_assoc, uncompact_compact _ h]
  exact take_append b r

theorem decode_old (o : OldNode) (h : o.Fits) : decodeOld o.encode = some o := by
  unfold decodeOld OldNode.encode
  rw [List.append_assoc, List.append_assoc, take_of_length h.account]
  simp only
  rw [unvec_vec _ _ h.ipv4]
  simp only
  rw [unvec_vec _ _ h.country]
  simp only
  have e : take 4 (le 4 o.expire) = some (le 4 o.expire, []) := by
    have := take_le 4 o.expire []
    rwa [List.append_nil] at this
  rw [e]
  simp only [unle_le 4 _ (show o.expire < 256 ^ 4 from h.expire)]

theorem decode_node (n : Node) (h : n.Fits) : decodeNode n.encode = some n := by
  unfold decodeNode Node.encode
  rw [List.append_assoc, take_of_length h.account]
  simp only
  rw [unvec_vec _ _ h.country]
  simp only
  have e : take 4 (le 4 n.expire) = some (le 4 n.expire, []) := by
    have := take_le 4 n.expire []
    rwa [List.append_nil] at this
  rw [e]
  simp only [unle_le 4 _ (show n.expire < 256 ^ 4 from h.expire)]

/-! ### C118 -/

/-- C118. After the upgrade every device is read with the account, the country and the expiry it had before, and nobody
else is in the registry. -/
theorem C118_kept (s : State) (hv : s.version = 0) (a : AccId) :
    (∀ o : OldNode, o.Fits → s.devices a = some o.encode →
      readDevice (onRuntimeUpgrade s) a = some { account := o.account, country := o.country, expire := o.expire }) ∧
    (s.devices a = none → (onRuntimeUpgrade s).devices a = none) ∧ (onRuntimeUpgrade s).version = 1 := by
  have e : onRuntimeUpgrade s = { version := currentVersion, devices := fun a => (s.devices a).map translate } := if_pos ⟨hv, rfl⟩
  rw [e]
  refine ⟨fun o ho h => ?_, fun h => ?_, rfl⟩
  · simp only [readDevice, h, Option.map_some, Option.bind_some, translate, decode_old o ho]
    exact decode_node (upgraded o) ⟨ho.account, ho.country, ho.expire⟩
  · simp only [h, Option.map_none]

theorem step_version (s : State) (op : Op) (h : s.version ≠ 0) : (step s op).version = s.version := by
  cases op with
  | write => rfl
  | remove => rfl
  | upgrade =>
    show (onRuntimeUpgrade s).version = _
    unfold onRuntimeUpgrade
    rw [if_neg fun hc => h hc.1]

theorem run_version (ops : List Op) : ∀ s : State, s.version ≠ 0 → (run s ops).version ≠ 0 := by
  induction ops with
  | nil => intro s h; exact h
  | cons op ops ih =>
    intro s h
    exact ih _ (by rw [step_version s op h]; exact h)

/-- C118. The upgrade takes place once: after it, and whatever the runtime writes in between, further upgrades change
nothing; nor does an upgrade on a chain which started with the new layout. -/
theorem C118_once (s : State) (ops : List Op) :
    let t := run (onRuntimeUpgrade s) ops
    onRuntimeUpgrade t = t := by
  intro t
  have h0 : (onRuntimeUpgrade s).version ≠ 0 := by
    unfold onRuntimeUpgrade
    split
    · exact (by decide : (1 : Nat) ≠ 0)
    · rename_i h
      exact fun hc => h ⟨hc, rfl⟩
  have := run_version ops _ h0
  show onRuntimeUpgrade t = t
  unfold onRuntimeUpgrade
  rw [if_neg fun hc => this hc.1]

/-- C118. New devices written after the upgrade are read back as they were registered. -/
theorem C118_read_back (s : State) (a : AccId) (n : Node) (h : n.Fits) (b : AccId) :
    readDevice (step s (.write a n)) b = if b = a then some n else readDevice s b := by
  simp only [readDevice, step]
  split
  · simp only [Option.bind_some, decode_node n h]
  · rfl

/-- C118. A device removed is not read any more; the other devices are read as before. -/
theorem C118_removed (s : State) (a b : AccId) :
    readDevice (step s (.remove a)) b = if b = a then none else readDevice s b := by
  simp only [readDevice, step]
  split <;> rfl

theorem le_bytes : ∀ (k n x : Nat), x ∈ le k n → x < 256
  | 0, _, _, h => by cases h
  | k + 1, n, x, h => by
    rw [le, List.mem_cons] at h
    rcases h with rfl | h
    · omega
    · exact le_bytes k _ x h

theorem compact_bytes (n x : Nat) (h : x ∈ compact n) : x < 256 := by
  unfold compact at h
  split at h
  · simp only [List.mem_singleton] at h; omega
  · split at h
    · exact le_bytes _ _ _ h
    · split at h
      · exact le_bytes _ _ _ h
      · rw [List.mem_cons] at h
        rcases h with rfl | h
        · decide
        · exact le_bytes _ _ _ h

/-- C118. What is written for a device whose account and country are bytes consists of bytes. -/
theorem C118_bytes (n : Node) (ha : ∀ x ∈ n.account, x < 256) (hc : ∀ x ∈ n.country, x < 256) :
    ∀ x ∈ n.encode, x < 256 := by
  intro x hx
  simp only [Node.encode, vec, List.mem_append] at hx
  rcases hx with (h | h | h) | h
  · exact ha x h
  · exact compact_bytes _ _ h
  · exact hc x h
  · exact le_bytes _ _ _ h

/-- A country of 64 bytes: the length takes two bytes. -/
example : (∀ x ∈ (⟨List.replicate 32 7, List.replicate 64 65, 9⟩ : Node).account, x < 256) ∧
    (∀ x ∈ (⟨List.replicate 32 7, List.replicate 64 65, 9⟩ : Node).country, x < 256) ∧
    (⟨List.replicate 32 7, List.replicate 64 65, 9⟩ : Node).encode.length = 32 + 2 + 64 + 4 := by decide

theorem take_rest {k : Nat} {s x r : Bytes} (h : take k s = some (x, r)) : r.length + k = s.length := by
  unfold take at h
  split at h
  · cases h
  · cases h
    rw [List.length_drop]
    omega

theorem uncompact_rest {s : Bytes} {n : Nat} {r : Bytes} (h : uncompact s = some (n, r)) : r.length < s.length := by
  cases s with
  | nil => cases h
  | cons p s =>
    have fin : ∀ k, ∀ x : Bytes × Bytes, take k s = some x → x.2.length ≤ s.length := by
      intro k x hx
      have := take_rest (x := x.1) (r := x.2) hx
      omega
    rw [List.length_cons]
    simp only [uncompact] at h
    split at h
    · cases h; omega
    · split at h
      · cases ht : take 1 s with
        | none => rw [ht] at h; cases h
        | some x =>
          rw [ht] at h
          simp only at h
          split at h
          · cases h; have := fin 1 x ht; omega
          · cases h
      · split at h
        · cases ht : take 3 s with
          | none => rw [ht] at h; cases h
          | some x =>
            rw [ht] at h
            simp only at h
            split at h
            · cases h; have := fin 3 x ht; omega
            · cases h
        · split at h
          · cases ht : take 4 s with
            | none => rw [ht] at h; cases h
            | some x =>
              rw [ht] at h
              simp only at h
              split at h
              · cases h; have := fin 4 x ht; omega
              · cases h
          · cases h

theorem unvec_rest {s x r : Bytes} (h : unvec s = some (x, r)) : r.length < s.length := by
  unfold unvec at h
  cases hu : uncompact s with
  | none => rw [hu] at h; cases h
  | some y =>
    rw [hu] at h
    simp only at h
    have h1 := uncompact_rest (n := y.1) (r := y.2) hu
    have h2 := take_rest h
    omega

theorem take_split {k : Nat} {s x r : Bytes} (h : take k s = some (x, r)) : s = x ++ r ∧ x.length = k := by
  unfold take at h
  split at h
  · cases h
  · cases h
    exact ⟨(List.take_append_drop k s).symm, by rw [List.length_take]; omega⟩

theorem le_unle : ∀ (x : Bytes), (∀ y ∈ x, y < 256) → le x.length (unle x) = x
  | [], _ => rfl
  | b :: x, h => by
    have hb := h b (List.mem_cons_self ..)
    have e1 : (b + 256 * unle x) % 256 = b := by omega
    have e2 : (b + 256 * unle x) / 256 = unle x := by omega
    simp only [unle, List.length_cons, le, e1, e2, le_unle x fun y hy => h y (List.mem_cons_of_mem _ hy)]

theorem unle_lt : ∀ (x : Bytes), (∀ y ∈ x, y < 256) → unle x < 256 ^ x.length
  | [], _ => by decide
  | b :: x, h => by
    have hb := h b (List.mem_cons_self ..)
    have := unle_lt x fun y hy => h y (List.mem_cons_of_mem _ hy)
    rw [unle, List.length_cons, Nat.pow_succ]
    omega

/-- A number is read from its own encoding only. -/
theorem uncompact_split {s : Bytes} {n : Nat} {r : Bytes} (hs : ∀ x ∈ s, x < 256) (h : uncompact s = some (n, r)) :
    s = compact n ++ r ∧ n < 2 ^ 32 := by
  cases s with
  | nil => cases h
  | cons p s =>
    have hp : p < 256 := hs p (List.mem_cons_self ..)
    have bytes : ∀ k (x r : Bytes), take k s = some (x, r) → ∀ y ∈ p :: x, y < 256 := by
      intro k x r ht y hy
      refine hs y ?_
      rw [(take_split ht).1]
      rcases List.mem_cons.mp hy with rfl | hy
      · exact List.mem_cons_self ..
      · exact List.mem_cons_of_mem _ (List.mem_append_left _ hy)
    simp only [uncompact] at h
    split at h
    · rename_i h4
      cases h
      have : p / 4 < 2 ^ 6 := by omega
      simp only [compact, if_pos this, List.cons_append, List.nil_append]
      exact ⟨by rw [Nat.div_mul_cancel (Nat.dvd_of_mod_eq_zero h4)], by omega⟩
    · split at h
      · rename_i h4
        cases ht : take 1 s with
        | none => rw [ht] at h; cases h
        | some xr =>
          obtain ⟨x, q⟩ := xr
          rw [ht] at h
          simp only at h
          obtain ⟨es, el⟩ := take_split ht
          have hb := bytes 1 x q ht
          have hlt := unle_lt _ hb
          have hle := le_unle _ hb
          have hm : unle (p :: x) % 4 = 1 := by rw [unle]; omega
          rw [List.length_cons, el] at hlt hle
          split at h
          · rename_i hn
            cases h
            have h2 : unle (p :: x) / 4 < 2 ^ 14 := by omega
            have e : unle (p :: x) / 4 * 4 + 1 = unle (p :: x) := by omega
            rw [compact, if_neg (by omega), if_pos h2, e, hle, es]
            exact ⟨rfl, by omega⟩
          · cases h
      · split at h
        · rename_i h4
          cases ht : take 3 s with
          | none => rw [ht] at h; cases h
          | some xr =>
            obtain ⟨x, q⟩ := xr
            rw [ht] at h
            simp only at h
            obtain ⟨es, el⟩ := take_split ht
            have hb := bytes 3 x q ht
            have hlt := unle_lt _ hb
            have hle := le_unle _ hb
            have hm : unle (p :: x) % 4 = 2 := by rw [unle]; omega
            rw [List.length_cons, el] at hlt hle
            split at h
            · rename_i hn
              cases h
              have h2 : unle (p :: x) / 4 < 2 ^ 30 := by omega
              have e : unle (p :: x) / 4 * 4 + 2 = unle (p :: x) := by omega
              rw [compact, if_neg (by omega), if_neg (by omega), if_pos h2, e, hle, es]
              exact ⟨rfl, by omega⟩
            · cases h
        · split at h
          · rename_i h3
            cases ht : take 4 s with
            | none => rw [ht] at h; cases h
            | some xr =>
              obtain ⟨x, q⟩ := xr
              rw [ht] at h
              simp only at h
              obtain ⟨es, el⟩ := take_split ht
              have hb : ∀ y ∈ x, y < 256 := fun y hy => bytes 4 x q ht y (List.mem_cons_of_mem _ hy)
              have hlt := unle_lt _ hb
              have hle := le_unle _ hb
              rw [el] at hlt hle
              split at h
              · rename_i hn
                cases h
                rw [compact, if_neg (by omega), if_neg (by omega), if_neg (by omega), hle, es, h3]
                exact ⟨rfl, hlt⟩
              · cases h
          · cases h

theorem unvec_split {s x r : Bytes} (hs : ∀ y ∈ s, y < 256) (h : unvec s = some (x, r)) :
    s = vec x ++ r ∧ x.length < 2 ^ 32 := by
  unfold unvec at h
  cases hu : uncompact s with
  | none => rw [hu] at h; cases h
  | some y =>
    rw [hu] at h
    simp only at h
    obtain ⟨h1, h2⟩ := uncompact_split (n := y.1) (r := y.2) hs hu
    obtain ⟨h3, h4⟩ := take_split h
    rw [h1, h3, vec, h4, List.append_assoc]
    exact ⟨rfl, h2⟩

/-- C118. What the upgrade takes for an old entry is the encoding of one, possibly followed by more bytes; all other
entries it leaves as they are. -/
theorem C118_decoded (s : State) (hv : s.version = 0) (a : AccId) (b : Bytes) (hb : ∀ x ∈ b, x < 256)
    (h : s.devices a = some b) :
    (∃ o : OldNode, o.Fits ∧ (∃ more, b = o.encode ++ more) ∧
      (onRuntimeUpgrade s).devices a = some (Node.encode ⟨o.account, o.country, o.expire⟩)) ∨
    ((∀ (o : OldNode) (more : Bytes), o.Fits → b ≠ o.encode ++ more) ∧ (onRuntimeUpgrade s).devices a = some b) := by
  have e : onRuntimeUpgrade s = { version := currentVersion, devices := fun a => (s.devices a).map translate } := if_pos ⟨hv, rfl⟩
  rw [e]
  simp only [h, Option.map_some]
  cases hd : decodeOld b with
  | some o =>
    refine Or.inl ⟨o, ?_⟩
    have e2 : translate b = (upgraded o).encode := by simp only [translate, hd]
    rw [e2]
    unfold decodeOld at hd
    cases h1 : take 32 b with
    | none => rw [h1] at hd; cases hd
    | some x1 =>
      obtain ⟨ac, r1⟩ := x1
      rw [h1] at hd
      simp only at hd
      obtain ⟨s1, l1⟩ := take_split h1
      have b1 : ∀ x ∈ r1, x < 256 := fun x hx => hb x (by rw [s1]; exact List.mem_append_right _ hx)
      cases h2 : unvec r1 with
      | none => rw [h2] at hd; cases hd
      | some x2 =>
        obtain ⟨ip, r2⟩ := x2
        rw [h2] at hd
        simp only at hd
        obtain ⟨s2, l2⟩ := unvec_split b1 h2
        have b2 : ∀ x ∈ r2, x < 256 := fun x hx => b1 x (by rw [s2]; exact List.mem_append_right _ hx)
        cases h3 : unvec r2 with
        | none => rw [h3] at hd; cases hd
        | some x3 =>
          obtain ⟨co, r3⟩ := x3
          rw [h3] at hd
          simp only at hd
          obtain ⟨s3, l3⟩ := unvec_split b2 h3
          have b3 : ∀ x ∈ r3, x < 256 := fun x hx => b2 x (by rw [s3]; exact List.mem_append_right _ hx)
          cases h4 : take 4 r3 with
          | none => rw [h4] at hd; cases hd
          | some x4 =>
            obtain ⟨ex, r4⟩ := x4
            rw [h4] at hd
            simp only at hd
            obtain ⟨s4, l4⟩ := take_split h4
            have b4 : ∀ x ∈ ex, x < 256 := fun x hx => b3 x (by rw [s4]; exact List.mem_append_left _ hx)
            cases hd
            have hlt := unle_lt ex b4
            have hle := le_unle ex b4
            rw [l4] at hlt hle
            refine ⟨⟨l1, l2, l3, hlt⟩, ⟨r4, ?_⟩, rfl⟩
            show b = (ac ++ vec ip ++ vec co ++ le 4 (unle ex)) ++ r4
            rw [hle, s1, s2, s3, s4]
            simp only [List.append_assoc]
  | none =>
    refine Or.inr ⟨?_, by simp only [translate, hd]⟩
    intro o more ho hbe
    subst hbe
    unfold decodeOld OldNode.encode at hd
    simp only [List.append_assoc] at hd
    rw [take_of_length ho.account] at hd
    simp only at hd
    rw [unvec_vec _ _ ho.ipv4] at hd
    simp only at hd
    rw [unvec_vec _ _ ho.country] at hd
    simp only at hd
    rw [take_le] at hd
    cases hd

/-- A new entry is never mistaken for an old one. -/
theorem decodeOld_new (n : Node) (h : n.Fits) : decodeOld n.encode = none := by
  unfold decodeOld Node.encode
  rw [List.append_assoc, take_of_length h.account]
  simp only
  rw [unvec_vec _ _ h.country]
  simp only
  cases hu : unvec (le 4 n.expire) with
  | none => rfl
  | some y =>
    have h1 := unvec_rest (x := y.1) (r := y.2) hu
    rw [le_length] at h1
    have : take 4 y.2 = none := if_pos h1
    simp only [this]

/-- C118. Should there be entries of the new layout already, the upgrade does not spoil them. -/
theorem C118_new_untouched (s : State) (a : AccId) (n : Node) (hn : n.Fits) (h : s.devices a = some n.encode) :
    readDevice (onRuntimeUpgrade s) a = some n := by
  unfold onRuntimeUpgrade
  split
  · simp only [readDevice, h, Option.map_some, Option.bind_some, translate, decodeOld_new n hn]
    exact decode_node n hn
  · simp only [readDevice, h, Option.bind_some]
    exact decode_node n hn

/-- C118. The upgrade is needed: without it an old entry is read as a device in the country whose code is the IP address
(or not at all). -/
theorem C118_needed (s : State) (a : AccId) (o : OldNode) (ho : o.Fits) (h : s.devices a = some o.encode) (n : Node)
    (hr : readDevice s a = some n) : n.country = o.ipv4 := by
  simp only [readDevice, h, Option.bind_some] at hr
  unfold decodeNode OldNode.encode at hr
  rw [List.append_assoc, List.append_assoc, take_of_length ho.account] at hr
  simp only at hr
  rw [unvec_vec _ _ ho.ipv4] at hr
  simp only at hr
  split at hr
  · cases hr
  · cases hr; rfl

/-! ### Example -/

def exAccount : Bytes := List.replicate 31 0 ++ [7]

/-- "1.2.3.4" in "US" until block 100000. -/
def exOld : OldNode := ⟨exAccount, [49, 46, 50, 46, 51, 46, 52], [85, 83], 100000⟩

def exState : State := ⟨0, fun a => if a = 7 then some exOld.encode else none⟩

example : readDevice (onRuntimeUpgrade exState) 7 = some ⟨exAccount, [85, 83], 100000⟩ :=
  (C118_kept exState rfl 7).1 exOld ⟨rfl, by decide, by decide, by decide⟩ rfl

/-- Without the upgrade the device seems to be in the country "1.2.3.4", with a senseless expiry. -/
example : readDevice exState 7 = some ⟨exAccount, [49, 46, 50, 46, 51, 46, 52], 2689815816⟩ := by decide +kernel

/-- A registry with an entry of either layout. -/
def exMixed : State :=
  ⟨0, fun a => if a = 7 then some exOld.encode else if a = 8 then some (Node.encode ⟨exAccount, [67, 78], 8⟩) else none⟩

example : readDevice (onRuntimeUpgrade exMixed) 8 = some ⟨exAccount, [67, 78], 8⟩ :=
  C118_new_untouched exMixed 8 ⟨exAccount, [67, 78], 8⟩ ⟨rfl, by decide, by decide⟩ rfl

/-- An entry whose address has its length in two bytes instead of one is not read, and left as it is. -/
def exLong : Bytes := exAccount ++ [29, 0, 49, 46, 50, 46, 51, 46, 52] ++ vec [85, 83] ++ le 4 100000

example : (∀ x ∈ exLong, x < 256) ∧ (onRuntimeUpgrade ⟨0, fun a => if a = 7 then some exLong else none⟩).devices 7 = some exLong ∧
    (onRuntimeUpgrade ⟨0, fun a => if a = 7 then some (exOld.encode ++ [1]) else none⟩).devices 7 =
      some (Node.encode ⟨exAccount, [85, 83], 100000⟩) := by decide +kernel

/-- After the upgrade a device is registered and another upgrade follows. -/
example : let t := run (onRuntimeUpgrade exState) [.write 9 ⟨exAccount, [67, 78], 8⟩, .upgrade, .remove 7]
    onRuntimeUpgrade t = t ∧ readDevice t 9 = some ⟨exAccount, [67, 78], 8⟩ ∧ readDevice t 7 = none :=
  ⟨C118_once exState _, by decide +kernel, by decide +kernel⟩

end Verif.NodeUpgrade
