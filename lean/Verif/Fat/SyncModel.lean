import Verif.Fat.FileModel

/-!
# FatFs: the directory entry of a file — model

Part of `lib/fatfs/ff.c`: `sync_fs`, `ld_clust`, `st_clust`, `f_sync`, and `f_open` of an entry that the path leads to. Left out: the search for the entry (`follow_path`), of which the
last step is kept, that the window is at the sector of the entry; new entries (`dir_register`); `validate`, the lock and `fp->id`. `CTRL_SYNC` is an operation of the disk like others.
-/

namespace Verif.Fat

/-- `dir_sect` and `dir_ptr` of `FIL`, the pointer as a position in the window -/
structure Slot where
  sect : Nat
  off : Nat

/-- `ld_clust`, ff.c:1615-1628 -/
def ldClust (ty : Spec.Ty) (w : Sector) (o : Nat) : Nat :=
  match ty with
  | .fat32 => ldWord w (o + 26) ||| ldWord w (o + 20) <<< 16
  | _ => ldWord w (o + 26)

/-- `st_clust`, ff.c:1631-1638 -/
def stClust (w : Sector) (o cl : Nat) : Sector := stWord (stWord w (o + 26) cl) (o + 20) (cl >>> 16)

/-- The FSINFO sector, ff.c:1126-1131 -/
def Fs.infoSector (fs : Fs) : Sector :=
  let w := stWord (fun _ => 0) 510 0xAA55
  let w := stDword w 0 0x41615252
  let w := stDword w 484 0x61417272
  let w := stDword w 488 fs.freeClust
  stDword w 492 fs.lastClust

/-- ff.c:1126-1135; the result of the write is ignored. `vol` is `volbase`. -/
def Fs.info (env : Env) (vol : Nat) (fs : Fs) : Fs :=
  let q := ({ fs with win := fs.infoSector, winsect := u32 (vol + 1) } : Fs).write env (u32 (vol + 1)) fs.infoSector
  { q.1 with fsiFlag := 0 }

/-- `sync_fs`, ff.c:1115-1143 -/
def Fs.syncFs (env : Env) (vol : Nat) (fs : Fs) : Fs × Fr :=
  let r := fs.sync env
  if r.2 then
    let fs := if r.1.ty = .fat32 ∧ r.1.fsiFlag = 1 then r.1.info env vol else r.1
    ({ fs with t := fs.t + 1 }, if env.fail fs.t then .diskErr else .ok)
  else (r.1, .diskErr)

/-- The changes of the directory entry, ff.c:3336-3341; `tm` is `get_fattime()`. -/
def putEntry (w : Sector) (o : Nat) (fp : Fil) (tm : Nat) : Sector :=
  let w := set w (o + 11) (w (o + 11) ||| 0x20)
  let w := stDword w (o + 28) fp.fsize
  let w := stClust w o fp.sclust
  let w := stDword w (o + 22) tm
  stWord w (o + 18) 0

/-- `f_sync`, ff.c:3312-3350, also the effect of `f_close`, ff.c:3358-3385, apart from `fp->fs = 0` -/
def fSync (env : Env) (vol tm : Nat) (fs : Fs) (fp : Fil) (sl : Slot) : Fs × Fil × Fr :=
  if fp.written then
    let w := fp.flush env fs
    if w.2.2 = false then (w.1, w.2.1, .diskErr)
    else
      let m := w.1.move env sl.sect
      if m.2 then
        let r := ({ m.1 with win := putEntry m.1.win sl.off w.2.1 tm, wflag := true } : Fs).syncFs env vol
        (r.1, { w.2.1 with written := false }, r.2)
      else (m.1, w.2.1, .diskErr)
  else (fs, fp, .ok)

/-- The mode bits of `f_open`: `FA_READ`, `FA_WRITE`, `FA_CREATE_ALWAYS`, `FA_OPEN_ALWAYS`, `FA_CREATE_NEW` -/
structure Mode where
  rd : Bool
  wr : Bool
  always : Bool
  orNew : Bool
  new : Bool

/-- The entry of an overwritten file, ff.c:2971-2976 -/
def resetEntry (w : Sector) (o tm : Nat) : Sector :=
  let w := stDword w (o + 14) tm
  let w := set w (o + 11) 0
  let w := stDword w (o + 28) 0
  stClust w o 0

/-- The end of `f_open`, ff.c:3016-3026; `old` is what the file object held. -/
def Fs.opened (fs : Fs) (sl : Slot) (m : Mode) (old : Fil) : Fil :=
  { old with rd := m.rd, wr := m.wr, written := m.always, dirty := false, err := .ok, sclust := ldClust fs.ty fs.win sl.off, fsize := ldDword fs.win (sl.off + 28), fptr := 0, dsect := 0 }

/-- The chain of an overwritten file is removed, ff.c:2970-2985. -/
def Fs.reset (env : Env) (fs : Fs) (sl : Slot) (tm : Nat) : Option (Fs × Fr) :=
  let cl := ldClust fs.ty fs.win sl.off
  let f1 : Fs := { fs with win := resetEntry fs.win sl.off tm, wflag := true }
  if cl ≠ 0 then
    match f1.removeChain env cl with
    | none => none
    | some (f2, res) =>
      if res = .ok then
        let m := ({ f2 with lastClust := sub32 cl 1 } : Fs).move env f1.winsect
        some (m.1, if m.2 then .ok else .diskErr)
      else some (f2, res)
  else some (f1, .ok)

/-- `f_open`, ff.c:2905-3042, of an entry that exists -/
def fOpen (env : Env) (fs : Fs) (sl : Slot) (m : Mode) (tm : Nat) (old : Fil) : Option (Fs × Fil × Fr) :=
  let v := fs.move env sl.sect
  if v.2 = false then some (v.1, old, .diskErr)
  else
    let a := v.1.win (sl.off + 11)
    if m.always ∨ m.orNew ∨ m.new then
      if a &&& 0x11 ≠ 0 then some (v.1, old, .denied)
      else if m.new then some (v.1, old, .exist)
      else if m.always then
        match v.1.reset env sl tm with
        | none => none
        | some (f1, res) => some (f1, if res = .ok then f1.opened sl m old else old, res)
      else some (v.1, v.1.opened sl m old, .ok)
    else if a &&& 0x10 ≠ 0 then some (v.1, old, .noFile)
    else if m.wr ∧ a &&& 0x01 ≠ 0 then some (v.1, old, .denied)
    else some (v.1, v.1.opened sl m old, .ok)

end Verif.Fat
