/-!
# Checksums (lib/crc)

Model of `crc32` (lib/crc/crc32.c) and `crc16` (lib/crc/crc16.c).
The C functions take a pointer and a length; the model takes the bytes as a list, so the memory
access itself (that `length` bytes are readable) is not modelled.
-/

namespace Verif.Crc

/-- A byte of the C program (`uint8_t`). -/
abbrev Byte := BitVec 8

/-! ## crc32 -/

/-- `CRC32_POLYNOMIAL`, lib/crc/crc32.c:5. -/
def crc32Poly : BitVec 32 := 0xEDB88320#32

/-- Body of the inner loop, lib/crc/crc32.c:15-19; `x` is `p[i]`, `bit` the loop variable. -/
def crc32Bit (crc : BitVec 32) (x : Byte) (bit : Nat) : BitVec 32 :=
  if (crc &&& 1#32) ≠ ((x >>> bit) &&& 1#8).setWidth 32 then (crc >>> 1) ^^^ crc32Poly
  else crc >>> 1

/-- Inner loop `for (bit = 0; bit < 8; bit++)`, lib/crc/crc32.c:14-20. -/
def crc32Byte (crc : BitVec 32) (x : Byte) : BitVec 32 :=
  [0, 1, 2, 3, 4, 5, 6, 7].foldl (fun c bit => crc32Bit c x bit) crc

/-- `crc32`, lib/crc/crc32.c:7-23. -/
def crc32 (init : BitVec 32) (data : List Byte) : BitVec 32 :=
  ~~~ (data.foldl crc32Byte (~~~ init))

/-! ## crc16 -/

/-- `CRC16_POLYNOMIAL`, lib/crc/crc16.c:5. -/
def crc16Poly : BitVec 16 := 0xA001#16

/-- Body of the inner loop, lib/crc/crc16.c:15-19. -/
def crc16Shift (crc : BitVec 16) : BitVec 16 :=
  if crc &&& 1#16 ≠ 0#16 then (crc >>> 1) ^^^ crc16Poly else crc >>> 1

/-- One iteration of the outer loop, lib/crc/crc16.c:11-20 (`crc ^= *p++` and eight shifts). -/
def crc16Byte (crc : BitVec 16) (x : Byte) : BitVec 16 :=
  (List.range 8).foldl (fun c _ => crc16Shift c) (crc ^^^ x.setWidth 16)

/-- `crc16`, lib/crc/crc16.c:7-23. -/
def crc16 (init : BitVec 16) (data : List Byte) : BitVec 16 :=
  data.foldl crc16Byte init

end Verif.Crc
