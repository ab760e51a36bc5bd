import Verif.Fat.Model

/-!
# FatFs: chains of clusters — model

Part of `lib/fatfs/ff.c`: `remove_chain`, `create_chain` and the counting of `f_getfree`. The loops have fuel; running out of it is the outcome `none`, which is shown not to
occur. `_USE_ERASE` is 0 in `ffconf.h`.
-/

namespace Verif.Fat

/-- `free_clust++` and `fsi_flag |= 1` if the number of free clusters is known, ff.c:1320-1323 -/
def Fs.freed (fs : Fs) : Fs :=
  if fs.freeClust ≠ 0xFFFFFFFF then { fs with freeClust := u32 (fs.freeClust + 1), fsiFlag := fs.fsiFlag ||| 1 } else fs

/-- The loop of `remove_chain`, ff.c:1303-1335 -/
def Fs.removeLoop (env : Env) : Nat → Fs → Nat → Option (Fs × Fr)
  | 0, _, _ => none
  | k + 1, fs, clst =>
    if clst < fs.nFatent then
      let r := fs.getFat env clst
      if r.2 = 0 then some (r.1, .ok)
      else if r.2 = 1 then some (r.1, .intErr)
      else if r.2 = 0xFFFFFFFF then some (r.1, .diskErr)
      else
        let q := r.1.putFat env clst 0
        if q.2 ≠ .ok then some q else Fs.removeLoop env k q.1.freed r.2
    else some (fs, .ok)

/-- `remove_chain`, ff.c:1287-1338 -/
def Fs.removeChain (env : Env) (fs : Fs) (clst : Nat) : Option (Fs × Fr) :=
  if clst < 2 ∨ clst ≥ fs.nFatent then some (fs, .intErr) else fs.removeLoop env fs.nFatent clst

/-- How the search of `create_chain` ends: with a free cluster, or with the value that is returned -/
inductive Found where
  | free (c : Nat)
  | stop (code : Nat)
deriving DecidableEq, Repr

/-- The search of `create_chain`, ff.c:1375-1392 -/
def Fs.search (env : Env) (scl : Nat) : Nat → Fs → Nat → Option (Fs × Found)
  | 0, _, _ => none
  | k + 1, fs, ncl =>
    let ncl := u32 (ncl + 1)
    let wrap := decide (ncl ≥ fs.nFatent)
    let ncl := if wrap then 2 else ncl
    if wrap && decide (ncl > scl) then some (fs, .stop 0)
    else
      let r := fs.getFat env ncl
      if r.2 = 0 then some (r.1, .free ncl)
      else if r.2 = 0xFFFFFFFF ∨ r.2 = 1 then some (r.1, .stop r.2)
      else if ncl = scl then some (r.1, .stop 0)
      else Fs.search env scl k r.1 ncl

/-- The end of `create_chain`: a free cluster is marked and linked, ff.c:1394-1409 -/
def Fs.link (env : Env) (fs : Fs) (clst ncl : Nat) : Fs × Nat :=
  let p := fs.putFat env ncl 0x0FFFFFFF
  let q := if p.2 = .ok ∧ clst ≠ 0 then p.1.putFat env clst ncl else p
  if q.2 = .ok then
    let fs : Fs := { q.1 with lastClust := ncl }
    (if fs.freeClust ≠ 0xFFFFFFFF then { fs with freeClust := sub32 fs.freeClust 1, fsiFlag := fs.fsiFlag ||| 1 } else fs, ncl)
  else (q.1, if q.2 = .diskErr then 0xFFFFFFFF else 1)

/-- The search from `scl`, then the end -/
def Fs.allocate (env : Env) (fs : Fs) (scl clst : Nat) : Option (Fs × Nat) :=
  match fs.search env scl fs.nFatent scl with
  | none => none
  | some (fs, .stop code) => some (fs, code)
  | some (fs, .free ncl) => some (fs.link env clst ncl)

/-- `create_chain`, ff.c:1346-1410 -/
def Fs.createChain (env : Env) (fs : Fs) (clst : Nat) : Option (Fs × Nat) :=
  if clst = 0 then
    fs.allocate env (if fs.lastClust = 0 ∨ fs.lastClust ≥ fs.nFatent then 1 else fs.lastClust) 0
  else
    let r := fs.getFat env clst
    if r.2 < 2 then some (r.1, 1)
    else if r.2 = 0xFFFFFFFF then some (r.1, r.2)
    else if r.2 < r.1.nFatent then some (r.1, r.2)
    else r.1.allocate env clst clst

/-- The count of `f_getfree` with entries of 12 bits, ff.c:3917-3932: `m` clusters from `clst` on are left. -/
def Fs.count12 (env : Env) : Nat → Fs → Nat → Nat → Fs × Fr × Nat
  | 0, fs, _, n => (fs, .ok, n)
  | m + 1, fs, clst, n =>
    let r := fs.getFat env clst
    if r.2 = 0xFFFFFFFF then (r.1, .diskErr, n)
    else if r.2 = 1 then (r.1, .intErr, n)
    else Fs.count12 env m r.1 (clst + 1) (if r.2 = 0 then n + 1 else n)

/-- The count of `f_getfree` with larger entries, ff.c:3934-3963: `m` entries are left, `off` bytes of the window have been read, `sect` is the next sector. -/
def Fs.count (env : Env) (w : Nat) (mask : Nat) : Nat → Fs → Nat → Nat → Nat → Fs × Fr × Nat
  | 0, fs, _, _, n => (fs, .ok, n)
  | m + 1, fs, sect, off, n =>
    let r := if off = 512 then fs.move env sect else (fs, true)
    let sect := if off = 512 then u32 (sect + 1) else sect
    let off := if off = 512 then 0 else off
    if r.2 then
      let v := (if w = 2 then ldWord r.1.win off else ldDword r.1.win off) &&& mask
      Fs.count env w mask m r.1 sect (off + w) (if v = 0 then n + 1 else n)
    else (r.1, .diskErr, n)

/-- `f_getfree` of a mounted volume, ff.c:3892-3965. The number is stored also if the count was interrupted. -/
def Fs.getFree (env : Env) (fs : Fs) : Fs × Fr × Nat :=
  if fs.freeClust ≤ sub32 fs.nFatent 2 then (fs, .ok, fs.freeClust)
  else
    let r := match fs.ty with
      | .fat12 => Fs.count12 env (fs.nFatent - 2) fs 2 0
      | .fat16 => Fs.count env 2 0xFFFF fs.nFatent fs fs.fatbase 512 0
      | .fat32 => Fs.count env 4 0x0FFFFFFF fs.nFatent fs fs.fatbase 512 0
    ({ r.1 with freeClust := r.2.2, fsiFlag := r.1.fsiFlag ||| 1 }, r.2)

end Verif.Fat
