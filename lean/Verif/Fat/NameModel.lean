import Verif.Fat.Model

/-!
# FatFs: names of files — model

Part of `lib/fatfs/ff.c` as configured in `lib/fatfs/include/fatfs/ffconf.h`: `_USE_LFN` 0, `_FS_RPATH` 0, `_CODE_PAGE` 1252. A string is the list of its bytes without the 0 at its end.
-/

namespace Verif.Fat

/-- `ExCvt`, ff.c:527-548 -/
def exCvt : List (BitVec 8) :=
  [0x80, 0x81, 0x82, 0x83, 0x84, 0x85, 0x86, 0x87, 0x88, 0x89, 0x8A, 0x8B, 0x8C, 0x8D, 0x8E, 0x8F,
   0x90, 0x91, 0x92, 0x93, 0x94, 0x95, 0x96, 0x97, 0x98, 0x99, 0xAD, 0x9B, 0x8C, 0x9D, 0xAE, 0x9F,
   0xA0, 0x21, 0xA2, 0xA3, 0xA4, 0xA5, 0xA6, 0xA7, 0xA8, 0xA9, 0xAA, 0xAB, 0xAC, 0xAD, 0xAE, 0xAF,
   0xB0, 0xB1, 0xB2, 0xB3, 0xB4, 0xB5, 0xB6, 0xB7, 0xB8, 0xB9, 0xBA, 0xBB, 0xBC, 0xBD, 0xBE, 0xBF,
   0xC0, 0xC1, 0xC2, 0xC3, 0xC4, 0xC5, 0xC6, 0xC7, 0xC8, 0xC9, 0xCA, 0xCB, 0xCC, 0xCD, 0xCE, 0xCF,
   0xD0, 0xD1, 0xD2, 0xD3, 0xD4, 0xD5, 0xD6, 0xD7, 0xD8, 0xD9, 0xDA, 0xDB, 0xDC, 0xDD, 0xDE, 0xDF,
   0xC0, 0xC1, 0xC2, 0xC3, 0xC4, 0xC5, 0xC6, 0xC7, 0xC8, 0xC9, 0xCA, 0xCB, 0xCC, 0xCD, 0xCE, 0xCF,
   0xD0, 0xD1, 0xD2, 0xD3, 0xD4, 0xD5, 0xD6, 0xF7, 0xD8, 0xD9, 0xDA, 0xDB, 0xDC, 0xDD, 0xDE, 0x9F]

/-- The characters that `chk_chr` rejects, ff.c:2425 -/
def rejected : List (BitVec 8) := [0x22, 0x2A, 0x2B, 0x2C, 0x3A, 0x3B, 0x3C, 0x3D, 0x3E, 0x3F, 0x5B, 0x5D, 0x7C, 0x7F]

/-- A character after the table, ff.c:2404-2413 -/
def extended (c : BitVec 8) : BitVec 8 := if 0x80 ≤ c then exCvt.getD (c.toNat - 0x80) 0 else c

/-- A small letter becomes a large one, ff.c:2428-2434. The bits in `b` are left out: they are used only with long names. -/
def capital (c : BitVec 8) : BitVec 8 := if 0x61 ≤ c ∧ c ≤ 0x7A then c - 0x20 else c

/-- The loop of `create_name`, ff.c:2391-2437: the name, `i`, the character that ended it, and what follows that -/
def nameLoop (sfn : Nat → BitVec 8) (i ni : Nat) : List (BitVec 8) → Option ((Nat → BitVec 8) × Nat × BitVec 8 × List (BitVec 8))
  | [] => some (sfn, i, 0, [])
  | c :: t =>
    if c ≤ 0x20 ∨ c = 0x2F ∨ c = 0x5C then some (sfn, i, c, t)
    else if c = 0x2E ∨ i ≥ ni then
      if ni ≠ 8 ∨ c ≠ 0x2E then none else nameLoop sfn 8 11 t
    else
      let c := extended c
      if c ∈ rejected then none else nameLoop (set sfn i (capital c)) (i + 1) ni t

/-- `create_name`, ff.c:2366-2460: the name in the form of the directory, whether it is the last one of the path, and the rest of the path; `none` is `FR_INVALID_NAME` -/
def createName (path : List (BitVec 8)) : Option ((Nat → BitVec 8) × Bool × List (BitVec 8)) :=
  match nameLoop (fun _ => 0x20) 0 8 (path.dropWhile fun c => c == 0x2F || c == 0x5C) with
  | none => none
  | some (sfn, i, c, rest) =>
    if i = 0 then none else some (if sfn 0 = 0xE5 then set sfn 0 0x05 else sfn, decide (c ≤ 0x20), rest)

/-- The name as `get_fileinfo` gives it, ff.c:2119-2149, from position `i` on, `k` characters -/
def showFrom (dir : Nat → BitVec 8) (i : Nat) : Nat → List (BitVec 8)
  | 0 => []
  | k + 1 =>
    if dir i = 0x20 then showFrom dir (i + 1) k
    else (if i = 8 then [0x2E] else []) ++ (if dir i = 0x05 then 0xE5 else dir i) :: showFrom dir (i + 1) k

def showName (dir : Nat → BitVec 8) : List (BitVec 8) := showFrom dir 0 11

end Verif.Fat
