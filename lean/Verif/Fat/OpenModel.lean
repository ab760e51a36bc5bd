import Verif.Fat.SyncModel
import Verif.Fat.PathModel

/-!
# FatFs: opening and making files by their path — model

`f_open` of `lib/fatfs/ff.c` as a whole, on a volume that is mounted (`find_volume`, the lock and `fp->id` are not modelled).
-/

namespace Verif.Fat

/-- What `f_open` returns -/
inductive OpenRes where
  | fr (r : Fr) | invalidName | noPath
deriving DecidableEq

/-- The mode after `mode |= FA_CREATE_ALWAYS`, ff.c:2959 -/
def Mode.made (m : Mode) : Mode := { m with always := true }

/-- A file that is not there is made, ff.c:2956-2986 and 2998-3038; `tm` is `get_fattime()`. -/
def openNew (env : Env) (rt : Root) (fs : Fs) (dp : Dir) (fn : Nat → BitVec 8) (m : Mode) (tm : Nat) (old : Fil) : Option (Fs × Fil × Slot × Fr) :=
  match dirRegister env rt fn fs dp with
  | none => none
  | some (fs, dp, r) =>
    let sl : Slot := ⟨fs.winsect, dp.off⟩
    if r = .ok then
      match fs.reset env sl tm with
      | none => none
      | some (fs, r) => some (fs, if r = .ok then fs.opened sl m.made old else old, ⟨fs.winsect, dp.off⟩, r)
    else some (fs, old, sl, r)

/-- `f_open`, ff.c:2905-3042. The slot is `fp->dir_sect` and `fp->dir_ptr`, which count if the result is ok. `follow_path` leaves the window at the entry that it has found. -/
def fOpenPath (env : Env) (rt : Root) (fs : Fs) (dp : Dir) (oldName : Nat → BitVec 8) (path : List (BitVec 8)) (m : Mode) (tm : Nat) (old : Fil) : Option (Fs × Fil × Slot × OpenRes) :=
  match followPath env rt fs dp oldName path with
  | none => none
  | some (fs, dp, fn, r) =>
    let sl : Slot := ⟨fs.winsect, dp.off⟩
    match r with
    | .origin => some (fs, old, sl, .invalidName)
    | .invalidName => some (fs, old, sl, .invalidName)
    | .noPath => some (fs, old, sl, .noPath)
    | .fr r =>
      if r = .ok then (fOpen env fs sl m tm old).map fun x => (x.1, x.2.1, ⟨x.1.winsect, dp.off⟩, .fr x.2.2)
      else if r = .noFile ∧ (m.always ∨ m.orNew ∨ m.new) then (openNew env rt fs dp fn m tm old).map fun x => (x.1, x.2.1, x.2.2.1, .fr x.2.2.2)
      else some (fs, old, sl, .fr r)

end Verif.Fat
