import Verif.Fat.PathModel
import Verif.Fat.SyncModel

/-!
# FatFs: making directories — model

`f_mkdir` of `lib/fatfs/ff.c` on a volume that is mounted (`find_volume` and the lock are not modelled).
-/

namespace Verif.Fat

/-- The first sector of a new directory, ff.c:4148-4162: the cluster of the directory, that of the one it is in, and the time -/
def dotSector (dcl pcl tm : Nat) : Sector :=
  let w : Sector := fun j => if j < 11 then 0x20 else 0
  let w := set w 0 0x2E
  let w := set w 11 0x10
  let w := stDword w 22 tm
  let w := stClust w 0 dcl
  let w : Sector := fun j => if 32 ≤ j ∧ j < 64 then w (j - 32) else w j
  let w := set w 33 0x2E
  stClust w 32 pcl

/-- The loop over the sectors of the new directory, ff.c:4163-4171 -/
def layLoop (env : Env) : Nat → Nat → Fs → Fs × Bool
  | 0, _, fs => (fs, true)
  | n + 1, dsc, fs =>
    let r := ({ fs with winsect := dsc, wflag := true } : Fs).sync env
    if r.2 then layLoop env n (u32 (dsc + 1)) { r.1 with win := fun _ => 0 } else (r.1, false)

/-- The new directory is laid out in its cluster, ff.c:4134-4172. -/
def layDir (env : Env) (rt : Root) (fs : Fs) (dcl sclust tm : Nat) : Fs × Fr :=
  if dcl = 0 then (fs, .denied)
  else if dcl = 1 then (fs, .intErr)
  else if dcl = 0xFFFFFFFF then (fs, .diskErr)
  else
    let s := fs.sync env
    if s.2 = false then (s.1, .diskErr)
    else
      let pcl := if s.1.ty = .fat32 ∧ sclust = rt.dirbase then 0 else sclust
      let z := layLoop env s.1.csize (s.1.clust2sect dcl) { s.1 with win := dotSector dcl pcl tm }
      (z.1, if z.2 then .ok else .diskErr)

/-- The entry of the new directory, ff.c:4179-4183 -/
def dirEntry (w : Sector) (o dcl tm : Nat) : Sector := stClust (stDword (set w (o + 11) 0x10) (o + 22) tm) o dcl

/-- A directory that is not there is made, ff.c:4132-4187; `tm` is `get_fattime()`, `vol` the first sector of the volume. What `remove_chain` returns is ignored. -/
def makeDir (env : Env) (rt : Root) (vol : Nat) (fs : Fs) (dp : Dir) (fn : Nat → BitVec 8) (tm : Nat) : Option (Fs × Fr) :=
  match fs.createChain env 0 with
  | none => none
  | some (fs, dcl) =>
    let p := layDir env rt fs dcl dp.sclust tm
    match (if p.2 = .ok then dirRegister env rt fn p.1 dp else some (p.1, dp, p.2)) with
    | none => none
    | some (fs, dp, r) =>
      if r ≠ .ok then (fs.removeChain env dcl).map fun x => (x.1, r)
      else some (({ fs with win := dirEntry fs.win dp.off dcl tm, wflag := true } : Fs).syncFs env vol)

/-- What `f_mkdir` returns -/
inductive MkdirRes where
  | fr (r : Fr) | invalidName | noPath
deriving DecidableEq

/-- `f_mkdir`, ff.c:4111-4191 -/
def fMkdir (env : Env) (rt : Root) (vol : Nat) (fs : Fs) (dp : Dir) (old : Nat → BitVec 8) (path : List (BitVec 8)) (tm : Nat) : Option (Fs × MkdirRes) :=
  match followPath env rt fs dp old path with
  | none => none
  | some (fs, dp, fn, r) =>
    match r with
    | .origin => some (fs, .fr .exist)
    | .invalidName => some (fs, .invalidName)
    | .noPath => some (fs, .noPath)
    | .fr r =>
      if r = .ok then some (fs, .fr .exist)
      else if r = .noFile then (makeDir env rt vol fs dp fn tm).map fun x => (x.1, .fr x.2)
      else some (fs, .fr r)

end Verif.Fat
