import Verif.Fat.OpenModel

/-!
# FatFs: attributes and times of files — model

`f_chmod` and `f_utime` of `lib/fatfs/ff.c` on a volume that is mounted (`find_volume` and the lock are not modelled).
-/

namespace Verif.Fat

/-- A change to the entry that the path leads to, as in ff.c:4210-4228 and 4249-4267; `g` changes the window at an offset. -/
def fChange (env : Env) (rt : Root) (vol : Nat) (fs : Fs) (dp : Dir) (old : Nat → BitVec 8) (path : List (BitVec 8)) (g : Sector → Nat → Sector) : Option (Fs × OpenRes) :=
  match followPath env rt fs dp old path with
  | none => none
  | some (fs, dp, _, r) =>
    match r with
    | .origin => some (fs, .invalidName)
    | .invalidName => some (fs, .invalidName)
    | .noPath => some (fs, .noPath)
    | .fr r =>
      if r = .ok then
        let s := ({ fs with win := g fs.win dp.off, wflag := true } : Fs).syncFs env vol
        some (s.1, .fr s.2)
      else some (fs, .fr r)

/-- The new attributes, ff.c:4222-4223 -/
def chmodEntry (value mask : BitVec 8) (w : Sector) (o : Nat) : Sector :=
  let mask := mask &&& (0x01 ||| 0x02 ||| 0x04 ||| 0x20)
  set w (o + 11) ((value &&& mask) ||| (w (o + 11) &&& ~~~mask))

/-- `f_chmod`, ff.c:4197-4231 -/
def fChmod (env : Env) (rt : Root) (vol : Nat) (fs : Fs) (dp : Dir) (old : Nat → BitVec 8) (path : List (BitVec 8)) (value mask : BitVec 8) : Option (Fs × OpenRes) := fChange env rt vol fs dp old path (chmodEntry value mask)

/-- The new time and date, ff.c:4261-4262 -/
def utimeEntry (ftime fdate : Nat) (w : Sector) (o : Nat) : Sector := stWord (stWord w (o + 22) ftime) (o + 24) fdate

/-- `f_utime`, ff.c:4237-4270 -/
def fUtime (env : Env) (rt : Root) (vol : Nat) (fs : Fs) (dp : Dir) (old : Nat → BitVec 8) (path : List (BitVec 8)) (ftime fdate : Nat) : Option (Fs × OpenRes) := fChange env rt vol fs dp old path (utimeEntry ftime fdate)

end Verif.Fat
