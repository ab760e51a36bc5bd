import Verif.Fat.DirModel
import Verif.Fat.NameModel

/-!
# FatFs: paths — model

Part of `lib/fatfs/ff.c` as configured in `lib/fatfs/include/fatfs/ffconf.h` (`_FS_RPATH` 0, `_USE_LFN` 0). A path is the list of its bytes without the 0 at its end.
-/

namespace Verif.Fat

/-- What `follow_path` returns; `origin` is FR_OK with `dp->dir` 0: the root itself. -/
inductive PathRes where
  | fr (r : Fr) | origin | invalidName | noPath
deriving DecidableEq

/-- The loop of `follow_path`, ff.c:2493-2525. Beside the directory it gives the name last looked for, which `dp->fn` points to. -/
def followLoop (env : Env) (rt : Root) : Nat → Fs → Dir → (Nat → BitVec 8) → List (BitVec 8) → Option (Fs × Dir × (Nat → BitVec 8) × PathRes)
  | 0, _, _, _, _ => none
  | k + 1, fs, dp, old, path =>
    match createName path with
    | none => some (fs, dp, old, .invalidName)
    | some (fn, last, rest) =>
      match dirFind env rt fn fs dp with
      | none => none
      | some (fs, dp, r) =>
        if r ≠ .ok then some (fs, dp, fn, if r = .noFile ∧ last = false then .noPath else .fr r)
        else if last then some (fs, dp, fn, .fr .ok)
        else if fs.win (dp.off + 11) &&& 0x10 = 0 then some (fs, dp, fn, .noPath)
        else followLoop env rt k fs { dp with sclust := ldClust fs.ty fs.win dp.off } fn rest

/-- A separator at the beginning of a path is skipped, ff.c:2484-2486. -/
def strip : List (BitVec 8) → List (BitVec 8)
  | [] => []
  | c :: t => if c = 0x2F ∨ c = 0x5C then t else c :: t

/-- `follow_path`, ff.c:2467-2527. What `create_name` leaves in `dp->fn` when it refuses a name is not modelled. -/
def followPath (env : Env) (rt : Root) (fs : Fs) (dp : Dir) (old : Nat → BitVec 8) (path : List (BitVec 8)) : Option (Fs × Dir × (Nat → BitVec 8) × PathRes) :=
  let p := strip path
  let dp := { dp with sclust := 0 }
  if p.headD 0 < 0x20 then
    match dirSdi env rt fs dp 0 with
    | none => none
    | some (fs, dp, r) => some (fs, dp, old, if r = .ok then .origin else .fr r)
  else followLoop env rt (p.length + 1) fs dp old p

end Verif.Fat
