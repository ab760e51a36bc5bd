import Verif.Flash.Model

/-!
# What the flash should hold

Stated on the layout of the region only, not with the functions that walk it.
-/

namespace Verif.Flash.Spec

open Verif.Crc (Byte crc32)
open Verif.Flash (Flash toLe crcInit)

/-- Header of the block of a document. -/
def head (d : List Byte) : List Byte :=
  toLe (crc32 crcInit (toLe (BitVec.ofNat 32 d.length))) ++ toLe (BitVec.ofNat 32 d.length) ++ toLe (crc32 crcInit d)

/-- Block of a document. -/
def block (d : List Byte) : List Byte := head d ++ d

/-- Erased flash. -/
def blank (k : Nat) : List Byte := List.replicate k 0xFF#8

/-- The eight bytes do not announce a block: the first word is not the checksum of the second. -/
def Quiet (w : List Byte) : Prop := ∀ a b, w = toLe a ++ toLe b → a ≠ crc32 crcInit (toLe b)

/-- What follows the region: at least 12 bytes, and together with erased bytes before they are no header. -/
def Tail (tail : List Byte) : Prop := 12 ≤ tail.length ∧ ∀ j, j ≤ 8 → Quiet (blank (8 - j) ++ tail.take j)

/-- The region of `n` bytes holds the documents `ds`, oldest first, and is erased behind. -/
def Stored (n : Nat) (tail : List Byte) (m : Flash) (ds : List (List Byte)) : Prop :=
  (∀ d ∈ ds, d.length < 2 ^ 32) ∧ ∃ k, m = ds.flatMap block ++ blank k ++ tail ∧ (ds.flatMap block).length + k = n

/-- Bytes used by the documents. -/
def used (ds : List (List Byte)) : Nat := (ds.flatMap block).length

/-- The region starts a sector of `sec` bytes whose other bytes are erased. -/
def InSector (n sec : Nat) (tail : List Byte) : Prop := n ≤ sec ∧ ∃ rest, tail = blank (sec - n) ++ rest

/-- A serialiser of the document `d` for up to `n` bytes: if there is enough room it writes exactly the document, otherwise it reports an error
and has written no more than there was room for. -/
structure Serialises (n : Nat) (ser : Nat → List Byte × Bool) (d : List Byte) : Prop where
  fits : ∀ r, r ≤ n → d.length ≤ r → ser r = (d, true)
  full : ∀ r, r ≤ n → 0 < r → r < d.length → (ser r).2 = false ∧ (ser r).1.length ≤ r

/-- Documents in the region after saving `d`: the older ones are kept if the new one fits behind them. -/
def saved (n : Nat) (ds : List (List Byte)) (d : List Byte) : List (List Byte) :=
  if used ds + 12 + d.length ≤ n then ds ++ [d] else [d]

end Verif.Flash.Spec
