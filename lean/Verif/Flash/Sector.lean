/-!
# Flash sectors of the STM32F4

Model of `flash_addr_to_sector`, lib/parameter_flash_storage/flash_f4.c:30-47, and the sector layout of the reference manual.
-/

namespace Verif.Flash

/-- `flash_addr_to_sector`: `addr` is a `uint32_t`, the result a `uint8_t`. -/
def addrToSector (addr : BitVec 32) : BitVec 8 :=
  let offset := addr &&& 0xFFFFFF#32
  let sector := BitVec.ofNat 8 (if offset.toNat < 0x10000 then offset.toNat / 0x4000
    else if offset.toNat < 0x20000 then 3 + offset.toNat / 0x10000
    else 4 + offset.toNat / 0x20000)
  if addr.toNat ≥ 0x08100000 then sector + 12#8 else sector

namespace Spec

/-- First byte and size of a sector of a bank, from the reference manual: 4 of 16 KiB, one of 64 KiB, seven of 128 KiB. -/
def sectorStart (i : Nat) : Nat := if i < 4 then i * 0x4000 else if i = 4 then 0x10000 else (i - 4) * 0x20000
def sectorSize (i : Nat) : Nat := if i < 4 then 0x4000 else if i = 4 then 0x10000 else 0x20000

/-- Byte `addr` of the address space is in sector `i` (0 to 11 in bank 1, 12 to 23 in bank 2). -/
def inSector (addr i : Nat) : Prop :=
  (i < 12 ∧ 0x08000000 + sectorStart i ≤ addr ∧ addr < 0x08000000 + sectorStart i + sectorSize i) ∨
  (12 ≤ i ∧ i < 24 ∧ 0x08100000 + sectorStart (i - 12) ≤ addr ∧ addr < 0x08100000 + sectorStart (i - 12) + sectorSize (i - 12))

end Spec

theorem offset_eq (addr : BitVec 32) : (addr &&& 0xFFFFFF#32).toNat = addr.toNat % 16777216 := by
  rw [BitVec.toNat_and, show (0xFFFFFF#32).toNat = 2 ^ 24 - 1 from rfl, Nat.and_two_pow_sub_one_eq_mod]

/-- Bank 1: the sector that contains the address. -/
theorem sector_bank1_partial (addr : BitVec 32) (h1 : 0x08000000 ≤ addr.toNat) (h2 : addr.toNat < 0x08100000) :
    Spec.inSector addr.toNat (addrToSector addr).toNat ∧ (addrToSector addr).toNat < 12 := by
  unfold addrToSector
  simp only [offset_eq]
  generalize addr.toNat = a at *
  rw [if_neg (by omega)]
  simp only [Spec.inSector, Spec.sectorStart, Spec.sectorSize, BitVec.toNat_ofNat]
  obtain ⟨o, rfl⟩ : ∃ o, a = 0x08000000 + o := ⟨a - 0x08000000, by omega⟩
  rw [show (0x08000000 + o) % 16777216 = o by omega]
  split
  · constructor
    · left
      rw [if_pos (show o / 0x4000 % 2 ^ 8 < 4 by omega), if_pos (show o / 0x4000 % 2 ^ 8 < 4 by omega)]
      omega
    · omega
  · split
    · rw [show (3 + o / 0x10000) % 2 ^ 8 = 4 by omega]
      constructor
      · left; simp; omega
      · omega
    · have hk : (4 + o / 0x20000) % 2 ^ 8 = 4 + o / 0x20000 := by omega
      rw [hk]
      constructor
      · left
        rw [if_neg (by omega), if_neg (by omega), if_neg (by omega), if_neg (by omega)]
        omega
      · omega

/-- Bank 2: never the sector that contains the address (the offset keeps the bank bit, so the result is at least 24). -/
theorem sector_bank2_wrong (addr : BitVec 32) (h1 : 0x08100000 ≤ addr.toNat) (h2 : addr.toNat < 0x08200000) :
    24 ≤ (addrToSector addr).toNat ∧ ¬Spec.inSector addr.toNat (addrToSector addr).toNat := by
  have : 24 ≤ (addrToSector addr).toNat := by
    unfold addrToSector
    simp only [offset_eq]
    generalize addr.toNat = a at *
    rw [if_pos (by omega)]
    obtain ⟨o, rfl⟩ : ∃ o, a = 0x08100000 + o := ⟨a - 0x08100000, by omega⟩
    rw [show (0x08100000 + o) % 16777216 = 0x100000 + o by omega, if_neg (by omega), if_neg (by omega)]
    rw [BitVec.toNat_add, BitVec.toNat_ofNat, BitVec.toNat_ofNat]
    omega
  refine ⟨this, ?_⟩
  intro h
  rcases h with h | h <;> omega

/-- Each address of the first bank is in exactly one sector, so `sector_bank1_partial` determines the result. -/
theorem sector_unique {a i j : Nat} (h2 : a < 0x08100000) (hi : Spec.inSector a i) (hj : Spec.inSector a j) : i = j := by
  simp only [Spec.inSector, Spec.sectorStart, Spec.sectorSize] at hi hj
  rcases hi with hi | hi <;> rcases hj with hj | hj
  · repeat' split at hi
    all_goals repeat' split at hj
    all_goals omega
  all_goals omega

example : addrToSector 0x0800C000#32 = 3#8 ∧ addrToSector 0x08010000#32 = 4#8 ∧ addrToSector 0x080E0000#32 = 11#8 ∧
    addrToSector 0x08100000#32 = 24#8 := by decide +kernel

end Verif.Flash
