import Verif.Fat.Spec

/-!
# FatFs: the window and the file allocation table

lib/fatfs/ff.c (FatFs R0.10b): `sync_window`, `move_window`, `clust2sect`, `get_fat`, `put_fat`, `remove_chain`, `create_chain`. The options are those of ffconf.h: sectors of 512
bytes, read and write, no erasing, no locking, byte by byte access.

Numbers are natural; where the code's `DWORD` or `UINT` (32 bits) could wrap around, `u32` says so. `BYTE* p = &fs->win[i]` is the index `i`. The disk is a function from sector
numbers to sectors. The operation number `t` of the disk fails if `fail t` says so: a read has then filled the buffer with `junk t`, a write has left `junk t` in the sector.
`fs_type` 0 (not mounted) is left out.
-/

namespace Verif.Fat

open Spec (Ty)

abbrev Sector := Nat → BitVec 8

def u32 (x : Nat) : Nat := x % 4294967296

/-- Unsigned subtraction of 32 bit numbers -/
def sub32 (x y : Nat) : Nat := u32 (x + 4294967296 - y)

structure Env where
  fail : Nat → Bool
  junk : Nat → Sector

/-- `FATFS`, ff.h: the fields used here, with the disk and the number of its operations so far -/
structure Fs where
  ty : Ty
  csize : Nat
  nFats : Nat
  fsiFlag : BitVec 8
  lastClust : Nat
  freeClust : Nat
  nFatent : Nat
  fsize : Nat
  fatbase : Nat
  database : Nat
  wflag : Bool
  winsect : Nat
  win : Sector
  disk : Nat → Sector
  t : Nat

def set {α : Type} (f : Nat → α) (i : Nat) (v : α) : Nat → α := fun j => if j = i then v else f j

/-- `FRESULT`, those used here -/
inductive Fr where
  | ok | diskErr | intErr | denied | noFile | exist
deriving DecidableEq, Repr

/-- `disk_write` of one sector; true: success -/
def Fs.write (env : Env) (fs : Fs) (s : Nat) (d : Sector) : Fs × Bool :=
  if env.fail fs.t then ({ fs with disk := set fs.disk s (env.junk fs.t), t := fs.t + 1 }, false)
  else ({ fs with disk := set fs.disk s d, t := fs.t + 1 }, true)

/-- `disk_read` of one sector: what is then in the buffer -/
def Fs.read (env : Env) (fs : Fs) (s : Nat) : Fs × Sector × Bool :=
  if env.fail fs.t then ({ fs with t := fs.t + 1 }, env.junk fs.t, false)
  else ({ fs with t := fs.t + 1 }, fs.disk s, true)

/-- The loop of `sync_window` over the copies of the table, ff.c:1082-1085, whose results are ignored -/
def Fs.mirror (env : Env) (fs : Fs) (wsect : Nat) : Nat → Fs
  | 0 => fs
  | n + 1 => Fs.mirror env (fs.write env (u32 (wsect + fs.fsize)) fs.win).1 (u32 (wsect + fs.fsize)) n

/-- `sync_window`, ff.c:1067-1089 -/
def Fs.sync (env : Env) (fs : Fs) : Fs × Bool :=
  if fs.wflag then
    let r := fs.write env fs.winsect fs.win
    if r.2 then
      let fs := { r.1 with wflag := false }
      (if sub32 fs.winsect fs.fatbase < fs.fsize then fs.mirror env fs.winsect (fs.nFats - 1) else fs, true)
    else (r.1, false)
  else (fs, true)

/-- `move_window`, ff.c:1091-1110 -/
def Fs.move (env : Env) (fs : Fs) (sector : Nat) : Fs × Bool :=
  if sector ≠ fs.winsect then
    let r := fs.sync env
    if r.2 then
      let q := r.1.read env sector
      let fs := { q.1 with win := q.2.1 }
      if q.2.2 then ({ fs with winsect := sector }, true) else (fs, false)
    else (r.1, false)
  else (fs, true)

/-- `clust2sect`, ff.c:1151-1161 -/
def Fs.clust2sect (fs : Fs) (clst : Nat) : Nat :=
  let clst := sub32 clst 2
  if clst ≥ sub32 fs.nFatent 2 then 0 else u32 (clst * fs.csize + fs.database)

/-- `LD_WORD` and `LD_DWORD`, ff.h:304-305 -/
def ldWord (w : Sector) (i : Nat) : Nat := (w (i + 1)).toNat <<< 8 ||| (w i).toNat
def ldDword (w : Sector) (i : Nat) : Nat := (w (i + 3)).toNat <<< 24 ||| (w (i + 2)).toNat <<< 16 ||| (w (i + 1)).toNat <<< 8 ||| (w i).toNat

def byte (x : Nat) : BitVec 8 := BitVec.ofNat 8 x

/-- `ST_WORD` and `ST_DWORD`, ff.h:306-313 -/
def stWord (w : Sector) (i v : Nat) : Sector := set (set w i (byte v)) (i + 1) (byte ((v % 65536) >>> 8))
def stDword (w : Sector) (i v : Nat) : Sector :=
  set (set (set (set w i (byte v)) (i + 1) (byte ((v % 65536) >>> 8))) (i + 2) (byte (u32 v >>> 16))) (i + 3) (byte (u32 v >>> 24))

/-- `get_fat`, ff.c:1167-1213 -/
def Fs.getFat (env : Env) (fs : Fs) (clst : Nat) : Fs × Nat :=
  if clst < 2 ∨ clst ≥ fs.nFatent then (fs, 1)
  else match fs.ty with
    | .fat12 =>
      let bc := u32 (clst + clst / 2)
      let r := fs.move env (u32 (fs.fatbase + bc / 512))
      if r.2 then
        let wc := (r.1.win (bc % 512)).toNat
        let bc := u32 (bc + 1)
        let q := r.1.move env (u32 (fs.fatbase + bc / 512))
        if q.2 then
          let wc := wc ||| (q.1.win (bc % 512)).toNat <<< 8
          (q.1, if clst &&& 1 ≠ 0 then wc >>> 4 else wc &&& 0xFFF)
        else (q.1, 0xFFFFFFFF)
      else (r.1, 0xFFFFFFFF)
    | .fat16 =>
      let r := fs.move env (u32 (fs.fatbase + clst / 256))
      if r.2 then (r.1, ldWord r.1.win (u32 (clst * 2) % 512)) else (r.1, 0xFFFFFFFF)
    | .fat32 =>
      let r := fs.move env (u32 (fs.fatbase + clst / 128))
      if r.2 then (r.1, ldDword r.1.win (u32 (clst * 4) % 512) &&& 0x0FFFFFFF) else (r.1, 0xFFFFFFFF)

/-- `put_fat`, ff.c:1220-1282. The flag is also set when the window could not be moved. -/
def Fs.putFat (env : Env) (fs : Fs) (clst val : Nat) : Fs × Fr :=
  if clst < 2 ∨ clst ≥ fs.nFatent then (fs, .intErr)
  else match fs.ty with
    | .fat12 =>
      let bc := u32 (clst + clst / 2)
      let r := fs.move env (u32 (fs.fatbase + bc / 512))
      if r.2 then
        let p := (r.1.win (bc % 512)).toNat
        let w := set r.1.win (bc % 512) (byte (if clst &&& 1 ≠ 0 then p &&& 0x0F ||| (byte val).toNat <<< 4 else val))
        let bc := u32 (bc + 1)
        let q := { r.1 with win := w, wflag := true }.move env (u32 (fs.fatbase + bc / 512))
        if q.2 then
          let p := (q.1.win (bc % 512)).toNat
          let w := set q.1.win (bc % 512) (byte (if clst &&& 1 ≠ 0 then val >>> 4 else p &&& 0xF0 ||| (byte (val >>> 8)).toNat &&& 0x0F))
          ({ q.1 with win := w, wflag := true }, .ok)
        else ({ q.1 with wflag := true }, .diskErr)
      else ({ r.1 with wflag := true }, .diskErr)
    | .fat16 =>
      let r := fs.move env (u32 (fs.fatbase + clst / 256))
      if r.2 then ({ r.1 with win := stWord r.1.win (u32 (clst * 2) % 512) val, wflag := true }, .ok)
      else ({ r.1 with wflag := true }, .diskErr)
    | .fat32 =>
      let r := fs.move env (u32 (fs.fatbase + clst / 128))
      if r.2 then
        let val := val ||| (ldDword r.1.win (u32 (clst * 4) % 512) &&& 0xF0000000)
        ({ r.1 with win := stDword r.1.win (u32 (clst * 4) % 512) val, wflag := true }, .ok)
      else ({ r.1 with wflag := true }, .diskErr)

end Verif.Fat
