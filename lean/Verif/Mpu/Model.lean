/-!
# Memory protection — model

`lib/arm-cortex-tools/mpu.c` and the memory protection unit (MPU) of the ARMv7-M processors it is written for, with 8 regions.
The barriers (mpu.c:42-43) and `SCB->SHCSR` (mpu.c:52), which decides what fault is raised, are not modelled.
-/

namespace Verif.Mpu

/-- The registers of the MPU: `enable` and `privDef` are bits of `CTRL`, `rnr` is the region selected; there is one `RBAR` and one `RASR` for each region. -/
structure Unit where
  enable : Bool
  privDef : Bool
  rnr : Nat
  rbar : Nat → BitVec 32
  rasr : Nat → BitVec 32

/-- A write to `MPU->RBAR`: if VALID (bit 4) is set, bits 0-3 select the region. -/
def writeRbar (m : Unit) (v : BitVec 32) : Unit :=
  let n := if v &&& 0x10 ≠ 0 then (v &&& 0xF).toNat else m.rnr
  { m with rnr := n, rbar := fun r => if r = n then v else m.rbar r }

/-- A write to `MPU->RASR` -/
def writeRasr (m : Unit) (v : BitVec 32) : Unit := { m with rasr := fun r => if r = m.rnr then v else m.rasr r }

/-- The value for `RASR`, mpu.c:20-36, modulo 2^32 -/
def attributes (len ap : BitVec 32) (executable : Bool) : BitVec 32 :=
  (if executable then 0 else 0x10000000) + (ap <<< 24) + ((len - 1) <<< 1) + 1

/-- `mpu_configure_region`, mpu.c:18-44; `none`: the assertion fails (mpu.c:22). -/
def configure (m : Unit) (region addr len ap : BitVec 32) (executable : Bool) : Option Unit :=
  if len.toNat < 5 then none
  else some (writeRasr (writeRbar m ((addr &&& 0xFFFFFFE0#32) + (region &&& 0xF) + 0x10)) (attributes len ap executable))

/-- `mpu_init`, mpu.c:46-68; the permissions are `AP_NO_NO` (0) and `AP_RW_RW` (3), mpu.h:12-20. -/
def init (m : Unit) : Option Unit := do
  let m ← configure { m with privDef := true } 7 0 5 0 false
  let m ← configure m 0 0x20000000 29 3 false
  some { m with enable := true }

/-! ## The processor (ARMv7-M architecture, section B3.5) -/

/-- What is done with the memory -/
inductive Access where
  | read | write | fetch
deriving DecidableEq

/-- The region `r` is enabled and the address is in it: the bits of the address from the size on are those of `RBAR`, and the eighth of the region is not switched off (regions of 256 bytes and more). -/
def hit (m : Unit) (r : Nat) (a : BitVec 32) : Bool :=
  let s := (m.rasr r).toNat
  let l := s / 2 % 32 + 1
  s % 2 = 1 && a.toNat / 2 ^ l = (m.rbar r).toNat / 2 ^ l && (l < 8 || s / 256 / 2 ^ (a.toNat / 2 ^ (l - 3) % 8) % 2 = 0)

/-- The table of access permissions for privileged and other code; 4 is reserved. -/
def permits (ap : Nat) (priv : Bool) (w : Bool) : Bool :=
  match ap, priv, w with
  | 1, true, _ | 2, true, _ | 2, false, false | 3, _, _ | 5, true, false | 6, _, false | 7, _, false => true
  | _, _, _ => false

/-- The access is permitted by the attributes in `RASR`; code is read, and not where XN (bit 28) is set. -/
def allows (v : BitVec 32) (priv : Bool) (x : Access) : Bool :=
  permits (v.toNat / 2 ^ 24 % 8) priv (x = .write) && (x ≠ .fetch || v.toNat / 2 ^ 28 % 2 = 0)

/-- The last of the first `n` regions with the address -/
def last (m : Unit) (a : BitVec 32) : Nat → Option Nat
  | 0 => none
  | n + 1 => if hit m n a then some n else last m a n

/-- An access is made; `plain` is the default memory map. -/
def access (plain : BitVec 32 → Access → Bool) (m : Unit) (a : BitVec 32) (priv : Bool) (x : Access) : Bool :=
  if m.enable = false then plain a x
  else match last m a 8 with
    | some r => allows (m.rasr r) priv x
    | none => priv && m.privDef && plain a x

end Verif.Mpu
