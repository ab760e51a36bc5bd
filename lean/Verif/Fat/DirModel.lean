import Verif.Fat.SyncModel

/-!
# FatFs: directories — model

Part of `lib/fatfs/ff.c` as configured in `lib/fatfs/include/fatfs/ffconf.h` (`_USE_LFN` 0). `dp->dir`, a pointer into the window, is the offset `off`. `none` is an endless loop.
-/

namespace Verif.Fat

open Spec (Ty)

/-- The fields of `FATFS` that tell where the root directory is -/
structure Root where
  dirbase : Nat
  nRoot : Nat

/-- `DIR`, ff.h, without the name -/
structure Dir where
  index : Nat
  sclust : Nat
  clust : Nat
  sect : Nat
  off : Nat

/-- The loop of `dir_sdi`, ff.c:1469-1478: an error, or the cluster and the index in it -/
def sdiLoop (env : Env) (ic : Nat) : Nat → Fs → Nat → Nat → Option (Fs × (Fr ⊕ Nat × Nat))
  | 0, _, _, _ => none
  | k + 1, fs, clst, idx =>
    if idx ≥ ic then
      let g := fs.getFat env clst
      if g.2 = 0xFFFFFFFF then some (g.1, .inl .diskErr)
      else if g.2 < 2 ∨ g.2 ≥ g.1.nFatent then some (g.1, .inl .intErr)
      else sdiLoop env ic k g.1 g.2 (idx - ic)
    else some (fs, .inr (clst, idx))

/-- The end of `dir_sdi`, ff.c:1481-1488 -/
def placed (fs : Fs) (dp : Dir) (clst sect idx : Nat) : Option (Fs × Dir × Fr) :=
  let dp := { dp with clust := clst }
  if sect = 0 then some (fs, dp, .intErr) else some (fs, { dp with sect := u32 (sect + idx / 16), off := idx % 16 * 32 }, .ok)

/-- `dir_sdi`, ff.c:1445-1489 -/
def dirSdi (env : Env) (rt : Root) (fs : Fs) (dp : Dir) (idx : Nat) : Option (Fs × Dir × Fr) :=
  let dp := { dp with index := idx % 65536 }
  if dp.sclust = 1 ∨ dp.sclust ≥ fs.nFatent then some (fs, dp, .intErr)
  else
    let clst := if dp.sclust = 0 ∧ fs.ty = .fat32 then rt.dirbase else dp.sclust
    if clst = 0 then
      if idx ≥ rt.nRoot then some (fs, dp, .intErr) else placed fs dp clst rt.dirbase idx
    else
      match sdiLoop env (16 * fs.csize) (idx + 1) fs clst idx with
      | none => none
      | some (fs, .inl e) => some (fs, dp, e)
      | some (fs, .inr (clst, idx)) => placed fs dp clst (fs.clust2sect clst) idx

/-- The loop that fills a new cluster with 0, ff.c:1536-1542 -/
def zeroLoop (env : Env) : Nat → Fs → Fs × Bool
  | 0, fs => (fs, true)
  | c + 1, fs =>
    let r := ({ fs with wflag := true } : Fs).sync env
    if r.2 then zeroLoop env c { r.1 with winsect := u32 (r.1.winsect + 1) } else (r.1, false)

/-- A new cluster at the end of the directory, ff.c:1517-1543: it, or an error -/
def stretchDir (env : Env) (fs : Fs) (clust : Nat) : Option (Fs × (Fr ⊕ Nat)) :=
  match fs.createChain env clust with
  | none => none
  | some (fs, clst) =>
    if clst = 0 then some (fs, .inl .denied)
    else if clst = 1 then some (fs, .inl .intErr)
    else if clst = 0xFFFFFFFF then some (fs, .inl .diskErr)
    else
      let s := fs.sync env
      if s.2 = false then some (s.1, .inl .diskErr)
      else
        let z := zeroLoop env s.1.csize { s.1 with win := fun _ => 0, winsect := s.1.clust2sect clst }
        if z.2 = false then some (z.1, .inl .diskErr)
        else some ({ z.1 with winsect := sub32 z.1.winsect z.1.csize }, .inr clst)

/-- `dir_next`, ff.c:1495-1565 -/
def dirNext (env : Env) (rt : Root) (fs : Fs) (dp : Dir) (stretch : Bool) : Option (Fs × Dir × Fr) :=
  let i := dp.index + 1
  let last (fs : Fs) (dp : Dir) : Option (Fs × Dir × Fr) := some (fs, { dp with index := i % 65536, off := i % 16 * 32 }, .ok)
  if i % 65536 = 0 ∨ dp.sect = 0 then some (fs, dp, .noFile)
  else if i % 16 = 0 then
    let dp := { dp with sect := u32 (dp.sect + 1) }
    if dp.clust = 0 then
      if i ≥ rt.nRoot then some (fs, dp, .noFile) else last fs dp
    else if i / 16 &&& (fs.csize - 1) = 0 then
      let g := fs.getFat env dp.clust
      if g.2 ≤ 1 then some (g.1, dp, .intErr)
      else if g.2 = 0xFFFFFFFF then some (g.1, dp, .diskErr)
      else if g.2 ≥ g.1.nFatent then
        if stretch = false then some (g.1, dp, .noFile)
        else match stretchDir env g.1 dp.clust with
          | none => none
          | some (fs, .inl e) => some (fs, dp, e)
          | some (fs, .inr clst) => last fs { dp with clust := clst, sect := fs.clust2sect clst }
      else last g.1 { dp with clust := g.2, sect := g.1.clust2sect g.2 }
    else last fs dp
  else last fs dp

/-- The loop of `dir_alloc` for one entry, ff.c:1587-1601 -/
def allocLoop (env : Env) (rt : Root) : Nat → Fs → Dir → Option (Fs × Dir × Fr)
  | 0, _, _ => none
  | k + 1, fs, dp =>
    let m := fs.move env dp.sect
    if m.2 = false then some (m.1, dp, .diskErr)
    else if m.1.win dp.off = 0xE5 ∨ m.1.win dp.off = 0 then some (m.1, dp, .ok)
    else match dirNext env rt m.1 dp true with
      | none => none
      | some (fs, dp, r) => if r = .ok then allocLoop env rt k fs dp else some (fs, dp, r)

/-- `dir_alloc`, ff.c:1578-1607, with `nent` 1 -/
def dirAlloc (env : Env) (rt : Root) (fs : Fs) (dp : Dir) : Option (Fs × Dir × Fr) :=
  match dirSdi env rt fs dp 0 with
  | none => none
  | some (fs, dp, r) =>
    match if r = .ok then allocLoop env rt 65537 fs dp else some (fs, dp, r) with
    | none => none
    | some (fs, dp, r) => some (fs, dp, if r = .noFile then .denied else r)

/-- The comparison of `dir_find`, ff.c:1893 -/
def hit (fn : Nat → BitVec 8) (w : Sector) (o : Nat) : Bool := w (o + 11) &&& 8 = 0 && (List.range 11).all fun j => w (o + j) == fn j

/-- The loop of `dir_find`, ff.c:1853-1898 -/
def findLoop (env : Env) (rt : Root) (fn : Nat → BitVec 8) : Nat → Fs → Dir → Option (Fs × Dir × Fr)
  | 0, _, _ => none
  | k + 1, fs, dp =>
    let m := fs.move env dp.sect
    if m.2 = false then some (m.1, dp, .diskErr)
    else if m.1.win dp.off = 0 then some (m.1, dp, .noFile)
    else if hit fn m.1.win dp.off then some (m.1, dp, .ok)
    else match dirNext env rt m.1 dp false with
      | none => none
      | some (fs, dp, r) => if r = .ok then findLoop env rt fn k fs dp else some (fs, dp, r)

/-- `dir_find`, ff.c:1833-1901 -/
def dirFind (env : Env) (rt : Root) (fn : Nat → BitVec 8) (fs : Fs) (dp : Dir) : Option (Fs × Dir × Fr) :=
  match dirSdi env rt fs dp 0 with
  | none => none
  | some (fs, dp, r) => if r = .ok then findLoop env rt fn 65537 fs dp else some (fs, dp, r)

/-- A new entry, ff.c:2045-2046 -/
def fresh (w : Sector) (o : Nat) (fn : Nat → BitVec 8) : Sector := fun j => if o ≤ j ∧ j < o + 32 then if j < o + 11 then fn (j - o) else 0 else w j

/-- `dir_register`, ff.c:1975-2054 -/
def dirRegister (env : Env) (rt : Root) (fn : Nat → BitVec 8) (fs : Fs) (dp : Dir) : Option (Fs × Dir × Fr) :=
  match dirAlloc env rt fs dp with
  | none => none
  | some (fs, dp, r) =>
    if r = .ok then
      let m := fs.move env dp.sect
      if m.2 then some ({ m.1 with win := fresh m.1.win dp.off fn, wflag := true }, dp, .ok) else some (m.1, dp, .diskErr)
    else some (fs, dp, r)

/-- An entry that is deleted, ff.c:2096-2097 -/
def erased (w : Sector) (o : Nat) : Sector := fun j => if o ≤ j ∧ j < o + 32 then if j = o then 0xE5 else 0 else w j

/-- `dir_remove`, ff.c:2062-2104 -/
def dirRemove (env : Env) (rt : Root) (fs : Fs) (dp : Dir) : Option (Fs × Dir × Fr) :=
  match dirSdi env rt fs dp dp.index with
  | none => none
  | some (fs, dp, r) =>
    if r = .ok then
      let m := fs.move env dp.sect
      if m.2 then some ({ m.1 with win := erased m.1.win dp.off, wflag := true }, dp, .ok) else some (m.1, dp, .diskErr)
    else some (fs, dp, r)

/-- A new object, as in `f_open` with FA_CREATE_NEW, ff.c:2931-2969, and `f_mkdir`, ff.c:4125-4175: the name in a directory given by its start cluster -/
def dirCreate (env : Env) (rt : Root) (fn : Nat → BitVec 8) (fs : Fs) (dp : Dir) : Option (Fs × Dir × Fr) :=
  match dirFind env rt fn fs dp with
  | none => none
  | some (fs, dp, r) => if r = .noFile then dirRegister env rt fn fs dp else some (fs, dp, if r = .ok then .exist else r)

/-- The entry of an object is removed, as in `f_unlink`, ff.c:4048-4090; whether it may be is not modelled. -/
def dirUnlink (env : Env) (rt : Root) (fn : Nat → BitVec 8) (fs : Fs) (dp : Dir) : Option (Fs × Dir × Fr) :=
  match dirFind env rt fn fs dp with
  | none => none
  | some (fs, dp, r) => if r = .ok then dirRemove env rt fs dp else some (fs, dp, r)

end Verif.Fat
