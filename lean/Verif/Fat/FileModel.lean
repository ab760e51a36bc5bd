import Verif.Fat.AllocModel

/-!
# FatFs: reading and writing of an open file — model

Part of `lib/fatfs/ff.c`: `f_read`, `f_write`, `f_lseek`, `f_truncate`, with `_FS_TINY` 0, `_USE_FASTSEEK` 0, `_FS_READONLY` 0 as in `ffconf.h`. Left out: `validate` (the file
object belongs to the mounted volume), the lock (`_FS_REENTRANT` 0), the directory entry. A buffer of the caller is a map from positions to bytes. The loops have fuel; running
out of it is the outcome `none`, which is shown not to occur.
-/

namespace Verif.Fat

/-- `FIL`, ff.h:108-134, the fields used here; `rd`, `wr`, `dirty` and `written` are bits of `flag`; `err` is `ok` for 0. -/
structure Fil where
  sclust : Nat
  clust : Nat
  fptr : Nat
  fsize : Nat
  dsect : Nat
  buf : Sector
  dirty : Bool
  written : Bool
  rd : Bool
  wr : Bool
  err : Fr

/-- `disk_read` of several sectors: what is then in the caller's buffer -/
def Fs.readMany (env : Env) (fs : Fs) (s : Nat) : Fs × (Nat → BitVec 8) × Bool :=
  if env.fail fs.t then ({ fs with t := fs.t + 1 }, fun i => env.junk fs.t (i % 512), false)
  else ({ fs with t := fs.t + 1 }, fun i => fs.disk (s + i / 512) (i % 512), true)

/-- `disk_write` of `n` sectors -/
def Fs.writeMany (env : Env) (fs : Fs) (s n : Nat) (src : Nat → BitVec 8) : Fs × Bool :=
  if env.fail fs.t then ({ fs with disk := fun x => if s ≤ x ∧ x < s + n then env.junk fs.t else fs.disk x, t := fs.t + 1 }, false)
  else ({ fs with disk := fun x => if s ≤ x ∧ x < s + n then fun j => src ((x - s) * 512 + j) else fs.disk x, t := fs.t + 1 }, true)

/-- The write back of the buffer of the file, as in ff.c:3122-3127, 3236-3241, 3691-3696 -/
def Fil.flush (env : Env) (fs : Fs) (fp : Fil) : Fs × Fil × Bool :=
  if fp.dirty then
    let r := fs.write env fp.dsect fp.buf
    if r.2 then (r.1, { fp with dirty := false }, true) else (r.1, fp, false)
  else (fs, fp, true)

/-- `csect`, ff.c:3079, 3201 -/
def csect (fs : Fs) (fp : Fil) : Nat := (fp.fptr / 512 &&& (fs.csize - 1)) % 256

/-- The buffer of the file with `n` bytes of `src` at position `o` -/
def patch (buf : Sector) (o n : Nat) (src : Nat → BitVec 8) : Sector := fun j => if o ≤ j ∧ j < o + n then src (j - o) else buf j

/-- The result of one turn of a loop over the data: `n` bytes have been transferred, the disk is full, or `ABORT` -/
inductive Turn where
  | more (fs : Fs) (fp : Fil) (n : Nat)
  | full (fs : Fs) (fp : Fil)
  | abort (fs : Fs) (fp : Fil) (res : Fr)

/-! ## `f_write` -/

/-- The end of a turn: bytes into the buffer of the file, ff.c:3283-3296 -/
def writeBytes (fs : Fs) (fp : Fil) (src : Nat → BitVec 8) (btw : Nat) : Turn :=
  let n := min (512 - fp.fptr % 512) btw
  .more fs { fp with buf := patch fp.buf (fp.fptr % 512) n src, dirty := true } n

/-- The buffer of the file after a direct write over its sector, ff.c:3259-3262 -/
def Fil.refill (fp : Fil) (sect cc : Nat) (src : Nat → BitVec 8) : Fil :=
  if sub32 fp.dsect sect < cc then { fp with buf := fun j => src (sub32 fp.dsect sect * 512 + j), dirty := false } else fp

/-- A turn at the start of a sector, from the write back on, ff.c:3235-3282 -/
def writeSector (env : Env) (fs : Fs) (fp : Fil) (src : Nat → BitVec 8) (btw cs : Nat) : Turn :=
  let r := fp.flush env fs
  let fs := r.1
  let fp := r.2.1
  if r.2.2 = false then .abort fs fp .diskErr
  else
    let sect := fs.clust2sect fp.clust
    if sect = 0 then .abort fs fp .intErr
    else
      let sect := u32 (sect + cs)
      let cc := btw / 512
      if cc ≠ 0 then
        let cc := if cs + cc > fs.csize then fs.csize - cs else cc
        let w := fs.writeMany env sect cc src
        if w.2 then
          .more w.1 (fp.refill sect cc src) (512 * cc)
        else .abort w.1 fp .diskErr
      else
        if fp.dsect ≠ sect ∧ fp.fptr < fp.fsize then
          let q := fs.read env sect
          let fp := { fp with buf := q.2.1 }
          if q.2.2 then writeBytes q.1 { fp with dsect := sect } src btw else .abort q.1 fp .diskErr
        else writeBytes fs { fp with dsect := sect } src btw

/-- The cluster of a turn at the start of a cluster, ff.c:3203-3219 -/
def writeCluster (env : Env) (fs : Fs) (fp : Fil) : Option (Fs × Nat) :=
  if fp.fptr = 0 then
    if fp.sclust = 0 then fs.createChain env 0 else some (fs, fp.sclust)
  else fs.createChain env fp.clust

/-- One turn of the loop of `f_write`, ff.c:3198-3296 -/
def writeTurn (env : Env) (fs : Fs) (fp : Fil) (src : Nat → BitVec 8) (btw : Nat) : Option Turn :=
  if fp.fptr % 512 = 0 then
    if csect fs fp = 0 then
      match writeCluster env fs fp with
      | none => none
      | some (fs, clst) =>
        if clst = 0 then some (.full fs fp)
        else if clst = 1 then some (.abort fs fp .intErr)
        else if clst = 0xFFFFFFFF then some (.abort fs fp .diskErr)
        else some (writeSector env fs { fp with clust := clst, sclust := if fp.sclust = 0 then clst else fp.sclust } src btw 0)
    else some (writeSector env fs fp src btw (csect fs fp))
  else some (writeBytes fs fp src btw)

/-- After the loop, ff.c:3299-3304 -/
def writeEnd (fs : Fs) (fp : Fil) (bw : Nat) : Fs × Fil × Fr × Nat :=
  (fs, { fp with fsize := if fp.fptr > fp.fsize then fp.fptr else fp.fsize, written := true }, .ok, bw)

/-- The loop of `f_write`, ff.c:3196-3298; the pieces of the buffer that are written are dropped from it. -/
def writeLoop (env : Env) : Nat → Fs → Fil → (Nat → BitVec 8) → Nat → Nat → Option (Fs × Fil × Fr × Nat)
  | k, fs, fp, src, btw, bw =>
    if btw = 0 then some (writeEnd fs fp bw)
    else match k with
      | 0 => none
      | k + 1 =>
        match writeTurn env fs fp src btw with
        | none => none
        | some (.more fs fp n) => writeLoop env k fs { fp with fptr := u32 (fp.fptr + n) } (fun i => src (n + i)) (btw - n) (bw + n)
        | some (.full fs fp) => some (writeEnd fs fp bw)
        | some (.abort fs fp res) => some (fs, { fp with err := res }, res, bw)

/-- `f_write`, ff.c:3166-3305: the state, the result and `*bw` -/
def fWrite (env : Env) (fs : Fs) (fp : Fil) (src : Nat → BitVec 8) (btw : Nat) : Option (Fs × Fil × Fr × Nat) :=
  if fp.err ≠ .ok then some (fs, fp, fp.err, 0)
  else if fp.wr = false then some (fs, fp, .denied, 0)
  else writeLoop env btw fs fp src (if u32 (fp.fptr + btw) < fp.fptr then 0 else btw) 0

/-! ## `f_read` -/

/-- The caller's buffer with `n` bytes of `src` at position `o` -/
def paste (out : Nat → BitVec 8) (o n : Nat) (src : Nat → BitVec 8) : Nat → BitVec 8 := fun i => if o ≤ i ∧ i < o + n then src (i - o) else out i

/-- The result of one turn of `f_read`, with the bytes -/
inductive RTurn where
  | more (fs : Fs) (fp : Fil) (n : Nat) (bytes : Nat → BitVec 8)
  | abort (fs : Fs) (fp : Fil) (res : Fr)

/-- The end of a turn: bytes from the buffer of the file, ff.c:3139-3155 -/
def readBytes (fs : Fs) (fp : Fil) (btr : Nat) : RTurn :=
  .more fs fp (min (512 - fp.fptr % 512) btr) fun i => fp.buf (fp.fptr % 512 + i)

/-- A turn at the start of a sector, ff.c:3099-3138 -/
def readSector (env : Env) (fs : Fs) (fp : Fil) (btr cs : Nat) : RTurn :=
  let sect := fs.clust2sect fp.clust
  if sect = 0 then .abort fs fp .intErr
  else
    let sect := u32 (sect + cs)
    let cc := btr / 512
    if cc ≠ 0 then
      let cc := if cs + cc > fs.csize then fs.csize - cs else cc
      let r := fs.readMany env sect
      if r.2.2 then
        let d := sub32 fp.dsect sect
        .more r.1 fp (512 * cc) (if fp.dirty ∧ d < cc then paste r.2.1 (d * 512) 512 fp.buf else r.2.1)
      else .abort r.1 fp .diskErr
    else if fp.dsect ≠ sect then
      let w := fp.flush env fs
      if w.2.2 = false then .abort w.1 w.2.1 .diskErr
      else
        let q := w.1.read env sect
        let fp := { w.2.1 with buf := q.2.1 }
        if q.2.2 then readBytes q.1 { fp with dsect := sect } btr else .abort q.1 fp .diskErr
    else readBytes fs { fp with dsect := sect } btr

/-- One turn of the loop of `f_read`, ff.c:3076-3155 -/
def readTurn (env : Env) (fs : Fs) (fp : Fil) (btr : Nat) : RTurn :=
  if fp.fptr % 512 = 0 then
    if csect fs fp = 0 then
      let r := if fp.fptr = 0 then (fs, fp.sclust) else fs.getFat env fp.clust
      if r.2 < 2 then .abort r.1 fp .intErr
      else if r.2 = 0xFFFFFFFF then .abort r.1 fp .diskErr
      else readSector env r.1 { fp with clust := r.2 } btr 0
    else readSector env fs fp btr (csect fs fp)
  else readBytes fs fp btr

/-- The loop of `f_read`, ff.c:3074-3156 -/
def readLoop (env : Env) : Nat → Fs → Fil → (Nat → BitVec 8) → Nat → Nat → Option (Fs × Fil × Fr × Nat × (Nat → BitVec 8))
  | k, fs, fp, out, btr, br =>
    if btr = 0 then some (fs, fp, .ok, br, out)
    else match k with
      | 0 => none
      | k + 1 =>
        match readTurn env fs fp btr with
        | .more fs fp n bytes => readLoop env k fs { fp with fptr := u32 (fp.fptr + n) } (paste out br n bytes) (btr - n) (br + n)
        | .abort fs fp res => some (fs, { fp with err := res }, res, br, out)

/-- `f_read`, ff.c:3048-3158: the state, the result, `*br` and the caller's buffer -/
def fRead (env : Env) (fs : Fs) (fp : Fil) (out : Nat → BitVec 8) (btr : Nat) : Option (Fs × Fil × Fr × Nat × (Nat → BitVec 8)) :=
  if fp.err ≠ .ok then some (fs, fp, fp.err, 0, out)
  else if fp.rd = false then some (fs, fp, .denied, 0, out)
  else readLoop env btr fs fp out (if btr > sub32 fp.fsize fp.fptr then sub32 fp.fsize fp.fptr else btr) 0

/-! ## `f_lseek` -/

/-- The size after a seek, ff.c:3716-3719 -/
def Fil.grow (fp : Fil) : Fil := if fp.fptr > fp.fsize then { fp with fsize := fp.fptr, written := true } else fp

/-- The end of a seek: the buffer and the size, ff.c:3699-3720 -/
def seekEnd (env : Env) (fs : Fs) (fp : Fil) (nsect : Nat) : Fs × Fil × Fr :=
  if fp.fptr % 512 ≠ 0 ∧ nsect ≠ fp.dsect then
    let w := fp.flush env fs
    if w.2.2 = false then (w.1, { w.2.1 with err := .diskErr }, .diskErr)
    else
      let q := w.1.read env nsect
      let fp := { w.2.1 with buf := q.2.1 }
      if q.2.2 = false then (q.1, { fp with err := .diskErr }, .diskErr)
      else
        (q.1, Fil.grow { fp with dsect := nsect }, .ok)
  else (fs, fp.grow, .ok)

/-- The loop along the chain, ff.c:3668-3688: the cluster, what is left of the offset, and the result, not `ok` for `ABORT` -/
def seekLoop (env : Env) : Nat → Fs → Fil → Nat → Nat → Option (Fs × Fil × Nat × Nat × Fr)
  | k, fs, fp, clst, ofs =>
    if ofs > fs.csize * 512 then
      match k with
      | 0 => none
      | k + 1 =>
        match (if fp.wr then fs.createChain env clst else some (fs.getFat env clst)) with
        | none => none
        | some (fs, clst) =>
          if fp.wr = true ∧ clst = 0 then some (fs, fp, clst, fs.csize * 512, .ok)
          else if clst = 0xFFFFFFFF then some (fs, fp, clst, ofs, .diskErr)
          else if clst ≤ 1 ∨ clst ≥ fs.nFatent then some (fs, fp, clst, ofs, .intErr)
          else seekLoop env k fs { fp with clust := clst, fptr := u32 (fp.fptr + fs.csize * 512) } clst (ofs - fs.csize * 512)
    else some (fs, fp, clst, ofs, .ok)

/-- From the cluster to the sector, ff.c:3667-3698 -/
def seekFrom (env : Env) (fs : Fs) (fp : Fil) (clst ofs : Nat) : Option (Fs × Fil × Fr) :=
  if clst = 0 then some (seekEnd env fs fp 0)
  else
    match seekLoop env ofs fs fp clst ofs with
    | none => none
    | some (fs, fp, clst, ofs, res) =>
      if res ≠ .ok then some (fs, { fp with err := res }, res)
      else
        let fp := { fp with fptr := u32 (fp.fptr + ofs) }
        if ofs % 512 ≠ 0 then
          let nsect := fs.clust2sect clst
          if nsect = 0 then some (fs, { fp with err := .intErr }, .intErr) else some (seekEnd env fs fp (u32 (nsect + ofs / 512)))
        else some (seekEnd env fs fp 0)

/-- `f_lseek`, ff.c:3545-3724 -/
def fLseek (env : Env) (fs : Fs) (fp : Fil) (ofs : Nat) : Option (Fs × Fil × Fr) :=
  if fp.err ≠ .ok then some (fs, fp, fp.err)
  else
    let ofs := if ofs > fp.fsize ∧ fp.wr = false then fp.fsize else ofs
    let ifptr := fp.fptr
    if ofs = 0 then some (seekEnd env fs { fp with fptr := 0 } 0)
    else
      let bcs := fs.csize * 512
      if 0 < ifptr ∧ (ofs - 1) / bcs ≥ (ifptr - 1) / bcs then
        let p := (ifptr - 1) &&& (0xFFFFFFFF - (bcs - 1))
        seekFrom env fs { fp with fptr := p } fp.clust (ofs - p)
      else if fp.sclust = 0 then
        match fs.createChain env 0 with
        | none => none
        | some (fs, clst) =>
          if clst = 1 then some (fs, { fp with fptr := 0, err := .intErr }, .intErr)
          else if clst = 0xFFFFFFFF then some (fs, { fp with fptr := 0, err := .diskErr }, .diskErr)
          else seekFrom env fs { fp with fptr := 0, sclust := clst, clust := clst } clst ofs
      else seekFrom env fs { fp with fptr := 0, clust := fp.sclust } fp.sclust ofs

/-! ## `f_truncate` -/

/-- `f_truncate`, ff.c:3972-4028 -/
def fTruncate (env : Env) (fs : Fs) (fp : Fil) : Option (Fs × Fil × Fr) :=
  if fp.err ≠ .ok then some (fs, fp, fp.err)
  else if fp.wr = false then some (fs, fp, .denied)
  else if fp.fsize > fp.fptr then
    let fp := { fp with fsize := fp.fptr, written := true }
    let r : Option (Fs × Fil × Fr) :=
      if fp.fptr = 0 then (fs.removeChain env fp.sclust).map fun r => (r.1, { fp with sclust := 0 }, r.2)
      else
        let g := fs.getFat env fp.clust
        let res := if g.2 = 0xFFFFFFFF then Fr.diskErr else if g.2 = 1 then .intErr else .ok
        if res = .ok ∧ g.2 < g.1.nFatent then
          let q := g.1.putFat env fp.clust 0x0FFFFFFF
          if q.2 = .ok then (q.1.removeChain env g.2).map fun r => (r.1, fp, r.2) else some (q.1, fp, q.2)
        else some (g.1, fp, res)
    match r with
    | none => none
    | some (fs, fp, res) =>
      let w := if res = .ok then fp.flush env fs else (fs, fp, true)
      let res := if res = .ok ∧ w.2.2 = false then .diskErr else res
      some (w.1, if res ≠ .ok then { w.2.1 with err := res } else w.2.1, res)
  else some (fs, fp, .ok)

end Verif.Fat
