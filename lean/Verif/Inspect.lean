import Verif.Basic

/-!
# The inspector: `deeper-chain inspect block …` and `inspect extrinsic …`

Source: `inspect/src/lib.rs`, `inspect/src/command.rs`.

Strings are lists of characters, bytes are numbers below 256, a block hash is its list of 32 bytes. What the node's
database answers is a parameter (`Access`), and so are the two SCALE decoders. Printing the result is not modelled: the
model returns the block or the extrinsic which is printed. Error texts are left out, only their kind is kept.
-/

namespace Verif.Inspect

open Verif

/-! ### Library functions used (trusted: std, impl-serde, fixed-hash, rustc-hex) -/

/-- The value of a hexadecimal digit, upper or lower case (impl-serde and rustc-hex, used by inspect/src/lib.rs:219,
229, 252). -/
def hexVal (c : Char) : Option Nat :=
  if 48 ≤ c.toNat ∧ c.toNat ≤ 57 then some (c.toNat - 48)
  else if 97 ≤ c.toNat ∧ c.toNat ≤ 102 then some (c.toNat - 87)
  else if 65 ≤ c.toNat ∧ c.toNat ≤ 70 then some (c.toNat - 55)
  else none

/-- The characters skipped by the hexadecimal readers: blank, tabulator, line feed, carriage return (impl-serde and
rustc-hex, used by inspect/src/lib.rs:219, 229, 252). -/
def isSpace (c : Char) : Bool := c == ' ' || c == '\t' || c == '\n' || c == '\r'

/-- `strip_prefix("0x")` (in both hexadecimal readers, used by inspect/src/lib.rs:219, 229, 252). -/
def strip0x : List Char → List Char
  | '0' :: 'x' :: s => s
  | s => s

/-- The loop of `from_hex_raw`: `m` is the number of digits read of the current byte, `buf` the byte being read (8 bits,
shifted, never reset), `out` the bytes stored so far (impl-serde, used by inspect/src/lib.rs:229, 252). -/
def hexLoop : List Char → (m buf : Nat) → (out : List Nat) → Option (List Nat)
  | [], _, _, out => some out
  | c :: s, m, buf, out =>
    if isSpace c then hexLoop s m buf out
    else match hexVal c with
      | none => none
      | some v =>
        let buf := (buf * 16 + v) % 256
        if m = 1 then hexLoop s 0 buf (out ++ [buf]) else hexLoop s 1 buf out

/-- `sp_core::bytes::from_hex`: the buffer has half as many bytes as the string has characters, rounded up, and those
not written stay zero; an odd string starts in the middle of a byte (impl-serde, used by inspect/src/lib.rs:229,
252). -/
def fromHex (s : List Char) : Option (List Nat) :=
  let v := strip0x s
  (hexLoop v (v.length % 2) 0 []).map fun out => out ++ List.replicate ((v.length + 1) / 2 - out.length) 0

/-- The digits read in pairs; an odd digit at the end is an error (rustc-hex `FromHexIter`, used by
inspect/src/lib.rs:219). -/
def pairs : List Nat → Option (List Nat)
  | [] => some []
  | [_] => none
  | a :: b :: s => (pairs s).map fun r => (a * 16 + b) :: r

/-- `H256::from_str`: 32 bytes in hexadecimal, with or without `0x`, blanks skipped (fixed-hash, used by
inspect/src/lib.rs:219). -/
def parseHash (s : List Char) : Option (List Nat) :=
  match ((strip0x s).filter fun c => !isSpace c).mapM hexVal with
  | none => none
  | some ds =>
    match pairs ds with
    | none => none
    | some bs => if bs.length = 32 then some bs else none

/-- The loop of the number parser: checked multiplication and addition (std, used by inspect/src/lib.rs:224, 265). -/
def numLoop (bound : Nat) : List Char → Nat → Option Nat
  | [], acc => some acc
  | c :: s, acc =>
    if 48 ≤ c.toNat ∧ c.toNat ≤ 57 then
      if acc * 10 < bound then
        if acc * 10 + (c.toNat - 48) < bound then numLoop bound s (acc * 10 + (c.toNat - 48)) else none
      else none
    else none

/-- Parsing an unsigned number below `bound`: an optional plus sign and at least one digit (std, used by
inspect/src/lib.rs:224, 265). -/
def parseNum (bound : Nat) : List Char → Option Nat
  | [] => none
  | ['+'] => none
  | '+' :: s => numLoop bound s 0
  | s => numLoop bound s 0

/-- `s.split(…)` at full stops, colons and blanks: the first piece and the others (std, used by
inspect/src/lib.rs:257). -/
def splitAddr : List Char → List Char × List (List Char)
  | [] => ([], [])
  | c :: s =>
    let r := splitAddr s
    if c == '.' || c == ':' || c == ' ' then ([], r.1 :: r.2) else (c :: r.1, r.2)

/-! ### Addresses -/

/-- `BlockAddress` (inspect/src/lib.rs:203-212). -/
inductive BlockAddress where
  | hash (h : List Nat)
  | number (n : Nat)
  | bytes (b : List Nat)
  deriving DecidableEq, Repr

/-- `BlockAddress::from_str`: a hash, else a number (32 bits: `BlockNumber`), else bytes in hexadecimal
(inspect/src/lib.rs:214-236). -/
def parseBlock (s : List Char) : Option BlockAddress :=
  match parseHash s with
  | some h => some (.hash h)
  | none =>
    match parseNum (2 ^ 32) s with
    | some n => some (.number n)
    | none => (fromHex s).map .bytes

/-- `ExtrinsicAddress` (inspect/src/lib.rs:238-245). -/
inductive ExtrinsicAddress where
  | block (b : BlockAddress) (index : Nat)
  | bytes (b : List Nat)
  deriving DecidableEq, Repr

/-- `ExtrinsicAddress::from_str`: bytes in hexadecimal, else the block and the index (64 bits: `usize`); further pieces
are not looked at (inspect/src/lib.rs:247-272). -/
def parseExtrinsic (s : List Char) : Option ExtrinsicAddress :=
  match fromHex s with
  | some b => some (.bytes b)
  | none =>
    match parseBlock (splitAddr s).1 with
    | none => none
    | some b =>
      match (splitAddr s).2 with
      | [] => none
      | i :: _ => (parseNum (2 ^ 64) i).map (.block b)

/-! ### The inspector -/

/-- What can go wrong (inspect/src/lib.rs:80-92; `badAddress` is the error of the parsers, 217, 250). -/
inductive Error where
  | badAddress | codec | blockchain | notFound
  deriving DecidableEq, Repr

/-- The database of the node (`HeaderBackend`, `BlockBackend`; inspect/src/lib.rs:94-102) and the decoders of the block
type. `none` outside is an error of the database, `none` inside means not found. -/
structure Access (Hdr Ext : Type) where
  /-- `expect_block_hash_from_id`; an error if there is no block of this number -/
  hashOf : Nat → Option (List Nat)
  body : List Nat → Option (Option (List Ext))
  header : List Nat → Option (Option Hdr)
  decodeBlock : List Nat → Option (Hdr × List Ext)
  decodeExt : List Nat → Option Ext

variable {Hdr Ext : Type}

/-- The block of a hash: body first, then header (inspect/src/lib.rs:149-156, 161-168). -/
def blockOf (ch : Access Hdr Ext) (h : List Nat) : Except Error (Hdr × List Ext) :=
  match ch.body h with
  | none => .error .blockchain
  | some none => .error .notFound
  | some (some b) =>
    match ch.header h with
    | none => .error .blockchain
    | some none => .error .notFound
    | some (some x) => .ok (x, b)

/-- `get_block` (inspect/src/lib.rs:142-172). -/
def getBlock (ch : Access Hdr Ext) : BlockAddress → Except Error (Hdr × List Ext)
  | .bytes b => match ch.decodeBlock b with
    | none => .error .codec
    | some x => .ok x
  | .number n => match ch.hashOf n with
    | none => .error .blockchain
    | some h => blockOf ch h
  | .hash h => blockOf ch h

/-- `extrinsic` (inspect/src/lib.rs:174-200). -/
def getExtrinsic (ch : Access Hdr Ext) : ExtrinsicAddress → Except Error Ext
  | .block b i => match getBlock ch b with
    | .error e => .error e
    | .ok x => match x.2[i]? with
      | none => .error .notFound
      | some e => .ok e
  | .bytes b => match ch.decodeExt b with
    | none => .error .codec
    | some e => .ok e

/-- `inspect block INPUT` (inspect/src/command.rs:42-47). -/
def inspectBlock (ch : Access Hdr Ext) (s : List Char) : Except Error (Hdr × List Ext) :=
  match parseBlock s with
  | none => .error .badAddress
  | some b => getBlock ch b

/-- `inspect extrinsic INPUT` (inspect/src/command.rs:48-53). -/
def inspectExtrinsic (ch : Access Hdr Ext) (s : List Char) : Except Error Ext :=
  match parseExtrinsic s with
  | none => .error .badAddress
  | some a => getExtrinsic ch a

end Verif.Inspect
