import Verif.Fat.DirModel

/-!
# FatFs: mounting a volume

lib/fatfs/ff.c: `check_fs` (2597-2620) and the part of `find_volume` (2682-2820) that looks for a volume on the disk and takes its description from the boot sector. Options of
ffconf.h: one volume, one partition (`LD2PT` is 0), sectors of 512 bytes, read and write; `_FS_NOFSINFO` 0. Left out: the number of the drive in the path, volumes that are mounted
already, `disk_status` and `disk_initialize`, and what calls that fail leave in the fields (the volume then counts as not mounted: `fs_type` is 0).
-/

namespace Verif.Fat

open Spec (Ty)

/-- `check_fs`, ff.c:2597-2620: 0: boot sector of a FAT volume, 1: boot sector, but not of a FAT volume, 2: no boot sector, 3: disk error -/
def Fs.checkFs (env : Env) (fs : Fs) (sect : Nat) : Fs × Nat :=
  let m := Fs.move env { fs with wflag := false, winsect := 0xFFFFFFFF } sect
  if m.2 = false then (m.1, 3)
  else if ldWord m.1.win 510 ≠ 0xAA55 then (m.1, 2)
  else if ldDword m.1.win 54 &&& 0xFFFFFF = 0x544146 then (m.1, 0)
  else if ldDword m.1.win 82 &&& 0xFFFFFF = 0x544146 then (m.1, 0)
  else (m.1, 1)

/-- `br[i]`, ff.c:2689-2692 -/
def part (w : Sector) (i : Nat) : Nat := if (w (446 + i * 16 + 4)).toNat ≠ 0 then ldDword w (446 + i * 16 + 8) else 0

/-- `fmt = bsect ? check_fs(fs, bsect) : 2`, ff.c:2699 -/
def Fs.tryPart (env : Env) (fs : Fs) (b : Nat) : Fs × Nat := if b ≠ 0 then fs.checkFs env b else (fs, 2)

/-- The loop over the partitions from the first on, ff.c:2697-2700: the sector `bsect` and `fmt` -/
def Fs.tryParts (env : Env) (fs : Fs) (b : Nat) : List Nat → Fs × Nat × Nat
  | [] => let r := fs.tryPart env b
          (r.1, b, r.2)
  | b' :: bs => let r := fs.tryPart env b
                if r.2 ≠ 0 then Fs.tryParts env r.1 b' bs else (r.1, b, r.2)

/-- What `find_volume` takes from the boot sector -/
structure Geo where
  ty : Ty
  csize : Nat
  nFats : Nat
  fsize : Nat
  nFatent : Nat
  fatbase : Nat
  database : Nat
  root : Root

/-- `szbfat`, ff.c:2772-2780 -/
def szbfat (ty : Ty) (nFatent : Nat) : Nat :=
  match ty with
  | .fat32 => u32 (nFatent * 4)
  | .fat16 => u32 (nFatent * 2)
  | .fat12 => u32 (u32 (nFatent * 3) / 2 + nFatent % 2)

/-- The boot sector in the window, ff.c:2710-2784; `none`: `FR_NO_FILESYSTEM` -/
def geometry (w : Sector) (bsect : Nat) : Option Geo :=
  let fsize := if ldWord w 22 = 0 then ldDword w 36 else ldWord w 22
  let nFats := (w 16).toNat
  let fasize := u32 (fsize * nFats)
  let csize := (w 13).toNat
  let nRoot := ldWord w 17
  let tsect := if ldWord w 19 = 0 then ldDword w 32 else ldWord w 19
  let nrsv := ldWord w 14
  let sysect := u32 (nrsv + fasize + nRoot / 16)
  let nclst := (tsect - sysect) / csize
  let ty := if nclst ≥ 65526 then Ty.fat32 else if nclst ≥ 4086 then Ty.fat16 else Ty.fat12
  let nFatent := u32 (nclst + 2)
  let fatbase := u32 (bsect + nrsv)
  let dirbase := if ty = .fat32 then ldDword w 44 else u32 (fatbase + fasize)
  if ldWord w 11 ≠ 512 then none
  else if nFats ≠ 1 ∧ nFats ≠ 2 then none
  else if csize = 0 ∨ csize &&& (csize - 1) ≠ 0 then none
  else if nRoot % 16 ≠ 0 then none
  else if nrsv = 0 then none
  else if tsect < sysect then none
  else if nclst = 0 then none
  else if ty = .fat32 ∧ nRoot ≠ 0 then none
  else if ty ≠ .fat32 ∧ nRoot = 0 then none
  else if fsize < u32 (szbfat ty nFatent + 511) / 512 then none
  else some ⟨ty, csize, nFats, fsize, nFatent, fatbase, u32 (bsect + sysect), ⟨dirbase, nRoot⟩⟩

inductive Mount where
  | ok (fs : Fs) (root : Root)
  | diskErr
  | noFilesystem

/-- The fields of the boot sector, ff.c:2714-2777, and those for the allocation of clusters, ff.c:2788-2791 -/
def Fs.take (fs : Fs) (g : Geo) : Fs :=
  { fs with ty := g.ty, csize := g.csize, nFats := g.nFats, fsize := g.fsize, nFatent := g.nFatent, fatbase := g.fatbase, database := g.database,
            lastClust := 0xFFFFFFFF, freeClust := 0xFFFFFFFF, fsiFlag := 0x80#8 }

/-- The information sector, ff.c:2791-2807 -/
def Fs.fsinfo (env : Env) (fs : Fs) (bsect : Nat) : Fs :=
  if fs.ty = .fat32 ∧ ldWord fs.win 48 = 1 then
    let m := fs.move env (u32 (bsect + 1))
    if m.2 then
      let f := { m.1 with fsiFlag := 0#8 }
      if ldWord f.win 510 = 0xAA55 ∧ ldDword f.win 0 = 0x41615252 ∧ ldDword f.win 484 = 0x61417272 then
        { f with freeClust := ldDword f.win 488, lastClust := ldDword f.win 492 }
      else f
    else m.1
  else fs

/-- `find_volume` from the search for a volume on, ff.c:2682-2820 -/
def Fs.findVolume (env : Env) (fs : Fs) : Mount :=
  let c := fs.checkFs env 0
  let r := if c.2 = 1 then c.1.tryParts env (part c.1.win 0) [part c.1.win 1, part c.1.win 2, part c.1.win 3] else (c.1, 0, c.2)
  if r.2.2 = 3 then .diskErr
  else if r.2.2 ≠ 0 then .noFilesystem
  else match geometry r.1.win r.2.1 with
    | none => .noFilesystem
    | some g => .ok ((r.1.take g).fsinfo env r.2.1) g.root

end Verif.Fat
