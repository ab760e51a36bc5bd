import Verif.Crc.Model

/-!
# Parameter storage in flash

Model of `lib/parameter_flash_storage/parameter_flash_storage.c` on the flash driver `flash_f4.c` (bytes are programmed
one at a time). The flash is the list of bytes from the start of the region (`orig_dst`) on; the region is its first
`dst_len` bytes and the erased sector its first `sec` bytes. Programming a byte can only clear bits. Every access outside
the list is an error. The serialiser (`parameter_msgpack_write_cmp` through `cmp_flash_writer`) is a parameter: for the
number of bytes available it gives the bytes accepted, in order, and whether no error was reported; `Verif.Flash.Tree`
fills it in with the model of the MessagePack writer. Lock and unlock, and the registers of the flash controller are not
modelled. An erase is one step.
-/

namespace Verif.Flash

open Verif.Crc (Byte crc32)

inductive Err where
  | outOfBounds
  | fuel
deriving DecidableEq

abbrev Flash := List Byte

/-- What the driver does to the flash. -/
inductive Ev where
  /-- one round of the loop of `flash_write`, flash_f4.c:102-105 -/
  | prog (a : Nat) (d : Byte)
  /-- `flash_sector_erase`, flash_f4.c:110-129 -/
  | erase
deriving DecidableEq

/-- Effect of an event on the flash. Bits are only cleared by programming. -/
def Ev.apply (sec : Nat) (m : Flash) : Ev → Except Err Flash
  | .prog a d => if h : a < m.length then .ok (m.set a (m[a] &&& d)) else .error .outOfBounds
  | .erase => .ok (List.replicate (min sec m.length) 0xFF#8 ++ m.drop sec)

/-- Effect of a list of events. -/
def exec (sec : Nat) : Flash → List Ev → Except Err Flash
  | m, [] => .ok m
  | m, e :: es => do
    let m ← e.apply sec m
    exec sec m es

/-- `flash_write(addr, data, len)`, flash_f4.c:86-108. -/
def progs (a : Nat) : List Byte → List Ev
  | [] => []
  | d :: ds => .prog a d :: progs (a + 1) ds

/-- A flash with the list of what was done so far. -/
structure St where
  m : Flash
  evs : List Ev

/-- Do some events. -/
def St.emit (sec : Nat) (s : St) (evs : List Ev) : Except Err St := do
  let m ← exec sec s.m evs
  pure ⟨m, s.evs ++ evs⟩

/-- `CRC_INITIAL_VALUE`, parameter_flash_storage.c:12. -/
def crcInit : BitVec 32 := 0xdeadbeef#32

/-- `PARAMETER_FLASH_STORAGE_HEADER_SIZE`, parameter_flash_storage.h. -/
def header : Nat := 12

/-- Bytes of a `uint32_t` (little-endian target). -/
def toLe (x : BitVec 32) : List Byte :=
  [BitVec.ofNat 8 x.toNat, BitVec.ofNat 8 (x.toNat / 256), BitVec.ofNat 8 (x.toNat / 65536), BitVec.ofNat 8 (x.toNat / 16777216)]

def fromLe : List Byte → BitVec 32
  | [a, b, c, d] => BitVec.ofNat 32 (a.toNat + 256 * b.toNat + 65536 * c.toNat + 16777216 * d.toNat)
  | _ => 0

/-- `n` bytes at `p`. -/
def slice (m : Flash) (p n : Nat) : Except Err (List Byte) :=
  if p + n ≤ m.length then .ok ((m.drop p).take n) else .error .outOfBounds

/-- `memcpy(&x, p, 4)` -/
def word (m : Flash) (p : Nat) : Except Err (BitVec 32) := do
  let b ← slice m p 4
  pure (fromLe b)

/-- `parameter_flash_storage_block_is_valid`, parameter_flash_storage.c:130-159. -/
def isValid (m : Flash) (p : Nat) : Except Err Bool := do
  let crc ← word m p
  let len ← word m (p + 4)
  if crc != crc32 crcInit (toLe len) then pure false
  else
    let crc ← word m (p + 8)
    let data ← slice m (p + 12) len.toNat
    pure (crc == crc32 crcInit data)

/-- `parameter_flash_storage_block_get_length`, parameter_flash_storage.c:180-186. -/
def getLength (m : Flash) (p : Nat) : Except Err Nat := do
  let h ← slice m p 8
  pure (fromLe (h.drop 4)).toNat

/-- `parameter_flash_storage_block_find_last_used`, parameter_flash_storage.c:188-200 (first argument: bound on the
rounds). -/
def findLastUsed : Nat → Flash → Nat → Option Nat → Except Err (Option Nat)
  | 0, _, _, _ => .error .fuel
  | f + 1, m, block, last => do
    if ← isValid m block then
      let n ← getLength m block
      findLastUsed f m (block + n + header) (some block)
    else pure last

/-- `parameter_flash_storage_block_find_first_free`, parameter_flash_storage.c:202-212. -/
def findFirstFree : Nat → Flash → Nat → Except Err Nat
  | 0, _, _ => .error .fuel
  | f + 1, m, block => do
    if ← isValid m block then
      let n ← getLength m block
      findFirstFree f m (block + n + header)
    else pure block

/-- `parameter_flash_storage_write_block_header`, parameter_flash_storage.c:161-178. -/
def writeHeader (sec : Nat) (s : St) (dst len : Nat) : Except Err St := do
  let s ← s.emit sec (progs dst (toLe (crc32 crcInit (toLe (BitVec.ofNat 32 len)))))
  let s ← s.emit sec (progs (dst + 4) (toLe (BitVec.ofNat 32 len)))
  let data ← slice s.m (dst + header) len
  s.emit sec (progs (dst + 8) (toLe (crc32 crcInit data)))

/-- Lines 53-57 of `parameter_flash_storage_save`: without a valid block the sector is erased. The walks over the blocks
advance by at least 12 bytes, so the size of the flash bounds their rounds. -/
def prepare (sec : Nat) (s : St) : Except Err St := do
  match ← findLastUsed (s.m.length + 1) s.m 0 none with
  | none => s.emit sec [.erase]
  | some _ => pure s

/-- Lines 59-69: the first free block, or the start of the region after an erase. The difference of `size_t` (32 bits) at
line 62 wraps when the first free block is behind the region. -/
def place (sec dstLen : Nat) (s : St) : Except Err (St × Nat × Nat) := do
  let dst ← findFirstFree (s.m.length + 1) s.m 0
  let len := if dst ≤ dstLen then dstLen - dst else 2 ^ 32 + dstLen - dst
  if len ≤ header then do
    let s ← s.emit sec [.erase]
    pure (s, 0, dstLen)
  else pure (s, dst, len)

/-- Lines 89-100: padding and header. -/
def finish (sec : Nat) (s : St) (dst len : Nat) : Except Err St := do
  if len % 2 = 1 then do
    let s ← s.emit sec (progs (dst + len + header + 1) [0x00#8])
    writeHeader sec s dst (len + 1)
  else writeHeader sec s dst len

/-- `parameter_flash_storage_save`, parameter_flash_storage.c:42-103. The first argument bounds the recursion. -/
def save (sec dstLen : Nat) (ser : Nat → List Byte × Bool) : Nat → St → Except Err St
  | 0, _ => .error .fuel
  | f + 1, s => do
    let s ← prepare sec s
    let (s, dst, len) ← place sec dstLen s
    let (data, success) := ser (len - header)
    let s ← s.emit sec (progs (dst + header) data)
    if success == false then do
      let s ← s.emit sec [.erase]
      save sec dstLen ser f s
    else finish sec s dst data.length

/-- The part of `parameter_flash_storage_load` that finds the document, parameter_flash_storage.c:110-120: none if no valid
block is found. -/
def loadDoc (m : Flash) : Except Err (Option (List Byte)) := do
  match ← findLastUsed (m.length + 1) m 0 none with
  | none => pure none
  | some p =>
    let n ← getLength m p
    let d ← slice m (p + header) n
    pure (some d)

end Verif.Flash
