import Verif.Fat.PathModel
import Verif.Fat.SyncModel

/-!
# FatFs: reading directories and removing files and directories — model

Part of `lib/fatfs/ff.c` as configured in `lib/fatfs/include/fatfs/ffconf.h` (`_FS_RPATH` 0, `_USE_LFN` 0, `_FS_LOCK` 0).
-/

namespace Verif.Fat

/-- Is it a valid entry? ff.c:1952, with `vol` 0: neither deleted nor a dot entry, neither part of a long name nor the label -/
def valid (w : Sector) (o : Nat) : Bool := w o ≠ 0xE5 && w o ≠ 0x2E && w (o + 11) &&& 0x3F ≠ 0x0F && w (o + 11) &&& 0x3F ≠ 0x08

/-- The loop of `dir_read`, ff.c:1917-1961, with `res` as it is before the loop -/
def itemLoop (env : Env) (rt : Root) : Nat → Fs → Dir → Fr → Option (Fs × Dir × Fr)
  | 0, _, _, _ => none
  | k + 1, fs, dp, res =>
    if dp.sect = 0 then some (fs, dp, res)
    else
      let m := fs.move env dp.sect
      if m.2 = false then some (m.1, dp, .diskErr)
      else if m.1.win dp.off = 0 then some (m.1, dp, .noFile)
      else if valid m.1.win dp.off then some (m.1, dp, .ok)
      else match dirNext env rt m.1 dp false with
        | none => none
        | some (fs, dp, r) => if r = .ok then itemLoop env rt k fs dp .ok else some (fs, dp, r)

/-- `dir_read`, ff.c:1907-1968, for `vol` 0 -/
def dirRead (env : Env) (rt : Root) (fs : Fs) (dp : Dir) : Option (Fs × Dir × Fr) :=
  match itemLoop env rt 65537 fs dp .noFile with
  | none => none
  | some (fs, dp, r) => some (fs, if r = .ok then dp else { dp with sect := 0 }, r)

/-- Whether the directory with the start cluster `dclst` is empty, ff.c:4068-4086 -/
def bareDir (env : Env) (rt : Root) (fs : Fs) (dp : Dir) (dclst : Nat) : Option (Fs × Fr) :=
  if dclst < 2 then some (fs, .intErr)
  else match dirSdi env rt fs { dp with sclust := dclst } 2 with
    | none => none
    | some (fs, sdj, r) =>
      if r ≠ .ok then some (fs, r)
      else match dirRead env rt fs sdj with
        | none => none
        | some (fs, _, r) => some (fs, if r = .ok then .denied else if r = .noFile then .ok else r)

/-- The part of `f_unlink` after the path has been followed to an entry, which is in the window, ff.c:4057-4100; `vol` is the first sector of the volume. -/
def unlinkFound (env : Env) (rt : Root) (vol : Nat) (fs : Fs) (dp : Dir) : Option (Fs × Fr) :=
  let a := fs.win (dp.off + 11)
  if a &&& 0x01 ≠ 0 then some (fs, .denied)
  else
    let dclst := ldClust fs.ty fs.win dp.off
    match (if a &&& 0x10 ≠ 0 then bareDir env rt fs dp dclst else some (fs, .ok)) with
    | none => none
    | some (fs, r) =>
      if r ≠ .ok then some (fs, r)
      else match dirRemove env rt fs dp with
        | none => none
        | some (fs, _, r) =>
          if r ≠ .ok then some (fs, r)
          else match (if dclst ≠ 0 then fs.removeChain env dclst else some (fs, .ok)) with
            | none => none
            | some (fs, r) => if r = .ok then some (fs.syncFs env vol) else some (fs, r)

/-- What `f_unlink` returns; `undefined`: the code reads at a null pointer. -/
inductive UnlinkRes where
  | fr (r : Fr) | invalidName | noPath | undefined
deriving DecidableEq

/-- `f_unlink`, ff.c:4034-4105, on a volume that is mounted (`find_volume` is not modelled). For the path of the root `dj.dir` is 0: the code sets FR_INVALID_NAME, but `ld_clust(dj.fs, dir)` reads at the null pointer before (ff.c:4066). -/
def fUnlink (env : Env) (rt : Root) (vol : Nat) (fs : Fs) (dp : Dir) (old : Nat → BitVec 8) (path : List (BitVec 8)) : Option (Fs × UnlinkRes) :=
  match followPath env rt fs dp old path with
  | none => none
  | some (fs, dp, _, r) =>
    match r with
    | .origin => some (fs, .undefined)
    | .invalidName => some (fs, .invalidName)
    | .noPath => some (fs, .noPath)
    | .fr r => if r = .ok then (unlinkFound env rt vol fs dp).map fun x => (x.1, .fr x.2) else some (fs, .fr r)

end Verif.Fat
