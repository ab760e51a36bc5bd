import Verif.Fat.OpenModel

/-!
# FatFs: renaming — model

`f_rename` of `lib/fatfs/ff.c` on a volume that is mounted (`find_volume`, `get_ldnumber` and the lock are not modelled: the paths are without a drive number).
-/

namespace Verif.Fat

/-- The new entry gets all but the name and the reserved byte of the old one, which are in `buf` from the attributes on, ff.c:4320-4321. -/
def movedEntry (w : Sector) (o : Nat) (buf : Nat → BitVec 8) : Sector :=
  let w : Sector := fun j => if o + 13 ≤ j ∧ j < o + 32 then buf (j - o - 11) else w j
  set w (o + 11) (buf 0 ||| 0x20)

/-- The entry `..` of a directory that is moved to another one, ff.c:4323-4337; `o` is the offset of the new entry. -/
def fixParent (env : Env) (rt : Root) (fs : Fs) (o old new : Nat) : Fs × Fr :=
  if old ≠ new ∧ fs.win (o + 11) &&& 0x10 ≠ 0 then
    let dw := fs.clust2sect (ldClust fs.ty fs.win o)
    if dw = 0 then (fs, .intErr)
    else
      let m := fs.move env dw
      if m.2 = false then (m.1, .diskErr)
      else if m.1.win 33 = 0x2E then ({ m.1 with win := stClust m.1.win 32 (if m.1.ty = .fat32 ∧ new = rt.dirbase then 0 else new), wflag := true }, .ok)
      else (m.1, .ok)
  else (fs, .ok)

/-- The object is entered under the new name and removed under the old one, ff.c:4317-4344. -/
def moveEntry (env : Env) (rt : Root) (vol : Nat) (fs : Fs) (djo djn : Dir) (fn : Nat → BitVec 8) (buf : Nat → BitVec 8) : Option (Fs × Fr) :=
  match dirRegister env rt fn fs djn with
  | none => none
  | some (fs, djn, r) =>
    if r ≠ .ok then some (fs, r)
    else
      let u := fixParent env rt { fs with win := movedEntry fs.win djn.off buf, wflag := true } djn.off djo.sclust djn.sclust
      if u.2 ≠ .ok then some u
      else
        match dirRemove env rt u.1 djo with
        | none => none
        | some (fs, _, r) => if r = .ok then some (fs.syncFs env vol) else some (fs, r)

/-- `f_rename`, ff.c:4276-4353 -/
def fRename (env : Env) (rt : Root) (vol : Nat) (fs : Fs) (dp : Dir) (old : Nat → BitVec 8) (pathOld pathNew : List (BitVec 8)) : Option (Fs × OpenRes) :=
  match followPath env rt fs dp old pathOld with
  | none => none
  | some (fs, djo, fn, r) =>
    match r with
    | .origin => some (fs, .fr .noFile)
    | .invalidName => some (fs, .invalidName)
    | .noPath => some (fs, .noPath)
    | .fr r =>
      if r = .ok then
        let buf : Nat → BitVec 8 := fun j => fs.win (djo.off + 11 + j)
        match followPath env rt fs djo fn pathNew with
        | none => none
        | some (fs, djn, fn, r) =>
          match r with
          | .origin => some (fs, .fr .exist)
          | .invalidName => some (fs, .invalidName)
          | .noPath => some (fs, .noPath)
          | .fr r =>
            if r = .ok then some (fs, .fr .exist)
            else if r = .noFile then (moveEntry env rt vol fs djo djn fn buf).map fun x => (x.1, .fr x.2)
            else some (fs, .fr r)
      else some (fs, .fr r)

end Verif.Fat
