import Verif.Fat.UnlinkModel

/-!
# FatFs: listing directories — model

Part of `lib/fatfs/ff.c` as configured in `lib/fatfs/include/fatfs/ffconf.h` (`_USE_LFN` 0, `_FS_LOCK` 0).
-/

namespace Verif.Fat

/-- FILINFO -/
structure Info where
  name : List (BitVec 8)
  attr : BitVec 8
  size : Nat
  date : Nat
  time : Nat
deriving DecidableEq

/-- `get_fileinfo`, ff.c:2112-2158: after the end only the name is set, to the empty one. The name is the list of its characters without the 0 at its end. -/
def getInfo (fs : Fs) (dp : Dir) (old : Info) : Info :=
  if dp.sect ≠ 0 then
    { name := showName fun j => fs.win (dp.off + j), attr := fs.win (dp.off + 11), size := ldDword fs.win (dp.off + 28), date := ldWord fs.win (dp.off + 24), time := ldWord fs.win (dp.off + 22) }
  else { old with name := [] }

/-- `f_readdir`, ff.c:3819-3851, with an object that is valid and `fno` not 0 -/
def fReaddir (env : Env) (rt : Root) (fs : Fs) (dp : Dir) (old : Info) : Option (Fs × Dir × Info × Fr) :=
  match dirRead env rt fs dp with
  | none => none
  | some (fs, dp, r) =>
    let dp := if r = .noFile then { dp with sect := 0 } else dp
    let r := if r = .noFile then .ok else r
    if r = .ok then
      let info := getInfo fs dp old
      match dirNext env rt fs dp false with
      | none => none
      | some (fs, dp, r) => some (fs, if r = .noFile then { dp with sect := 0 } else dp, info, if r = .noFile then .ok else r)
    else some (fs, dp, old, r)

/-- What `f_opendir` and `f_stat` return -/
inductive LookRes where
  | fr (r : Fr) | invalidName | noPath
deriving DecidableEq

/-- `f_opendir`, ff.c:3731-3784, on a volume that is mounted (`find_volume` is not modelled) -/
def fOpendir (env : Env) (rt : Root) (fs : Fs) (dp : Dir) (old : Nat → BitVec 8) (path : List (BitVec 8)) : Option (Fs × Dir × LookRes) :=
  let rewind (fs : Fs) (dp : Dir) : Option (Fs × Dir × LookRes) := (dirSdi env rt fs dp 0).map fun x => (x.1, x.2.1, if x.2.2 = .noFile then .noPath else .fr x.2.2)
  match followPath env rt fs dp old path with
  | none => none
  | some (fs, dp, _, r) =>
    match r with
    | .invalidName => some (fs, dp, .invalidName)
    | .noPath => some (fs, dp, .noPath)
    | .origin => rewind fs dp
    | .fr r =>
      if r = .ok then
        if fs.win (dp.off + 11) &&& 0x10 ≠ 0 then rewind fs { dp with sclust := ldClust fs.ty fs.win dp.off } else some (fs, dp, .noPath)
      else some (fs, dp, if r = .noFile then .noPath else .fr r)

/-- `f_stat`, ff.c:3858-3886, with `fno` not 0 -/
def fStat (env : Env) (rt : Root) (fs : Fs) (dp : Dir) (fn : Nat → BitVec 8) (path : List (BitVec 8)) (old : Info) : Option (Fs × Info × LookRes) :=
  match followPath env rt fs dp fn path with
  | none => none
  | some (fs, dp, _, r) =>
    match r with
    | .invalidName => some (fs, old, .invalidName)
    | .noPath => some (fs, old, .noPath)
    | .origin => some (fs, old, .invalidName)
    | .fr r => some (fs, if r = .ok then getInfo fs dp old else old, .fr r)

/-- A program that lists a directory as the documentation of FatFs says: calls until an error or an empty name -/
def listLoop (env : Env) (rt : Root) : Nat → Fs → Dir → Info → Option (Fs × List Info × Fr)
  | 0, _, _, _ => none
  | k + 1, fs, dp, old =>
    match fReaddir env rt fs dp old with
    | none => none
    | some (fs, dp, info, r) =>
      if r ≠ .ok ∨ info.name = [] then some (fs, [], r)
      else (listLoop env rt k fs dp info).map fun x => (x.1, info :: x.2.1, x.2.2)

end Verif.Fat
