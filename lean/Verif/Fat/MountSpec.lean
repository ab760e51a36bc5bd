import Verif.Fat.SyncSpec

/-!
# Volumes on a disk, independently of the code

Microsoft's specification of the format: what the boot sector of a volume says, and where on a disk the volume is. All numbers are unbounded here.
-/

namespace Verif.Fat.Spec

/-- What the boot sector says -/
structure Params where
  /-- bytes in a sector -/
  bytes : Nat
  /-- sectors in a cluster -/
  perCluster : Nat
  /-- sectors before the tables -/
  reserved : Nat
  tables : Nat
  /-- sectors of a table -/
  tableSize : Nat
  /-- entries of the root directory, if it is not a chain of clusters -/
  rootEntries : Nat
  /-- sectors of the volume -/
  sectors : Nat
  /-- first cluster of the root directory, if it is a chain of clusters -/
  rootCluster : Nat

/-- Sizes that do not fit the older, smaller field are in the newer one, and the older one is 0. -/
def params (b : Nat → BitVec 8) : Params where
  bytes := le2 b 11
  perCluster := (b 13).toNat
  reserved := le2 b 14
  tables := (b 16).toNat
  tableSize := if le2 b 22 ≠ 0 then le2 b 22 else le4 b 36
  rootEntries := le2 b 17
  sectors := if le2 b 19 ≠ 0 then le2 b 19 else le4 b 32
  rootCluster := le4 b 44

/-- Sectors before the first cluster; entries of the root directory have 32 bytes. -/
def Params.system (p : Params) : Nat := p.reserved + p.tables * p.tableSize + p.rootEntries * 32 / 512

def Params.clusters (p : Params) : Nat := (p.sectors - p.system) / p.perCluster

/-- The number of clusters decides about the type. (Microsoft's specification draws the lines one cluster earlier, see `edge`; these are the lines of its drivers.) -/
def Params.ty (p : Params) : Ty := if p.clusters ≤ 4085 then .fat12 else if p.clusters ≤ 65525 then .fat16 else .fat32

/-- The type by Microsoft's specification -/
def Params.edge (p : Params) : Ty := if p.clusters < 4085 then .fat12 else if p.clusters < 65525 then .fat16 else .fat32

/-- The boot sector describes a volume. -/
structure Params.Sound (p : Params) : Prop where
  bytes : p.bytes = 512
  power : ∃ k, p.perCluster = 2 ^ k
  reserved : 0 < p.reserved
  tables : p.tables = 1 ∨ p.tables = 2
  whole : p.rootEntries * 32 % 512 = 0
  room : p.system ≤ p.sectors
  some : 0 < p.clusters
  root : p.ty = .fat32 ↔ p.rootEntries = 0
  /-- The table has an entry for each cluster and the two before the first. -/
  table : Spec.bytes p.ty (p.clusters + 2) ≤ 512 * p.tableSize

/-- The volume that begins in sector `b` can be addressed by 32 bit numbers of sectors and 28 bit numbers of clusters. -/
structure Params.Fits (p : Params) (b : Nat) : Prop where
  system : p.system < 4294967296
  ends : b + p.sectors ≤ 4294967296
  clusters : p.clusters + 11 ≤ 268435456

def Signed (b : Nat → BitVec 8) : Prop := b 510 = 0x55 ∧ b 511 = 0xAA

/-- The word "FAT" -/
def Fat (b : Nat → BitVec 8) (o : Nat) : Prop := b o = 0x46 ∧ b (o + 1) = 0x41 ∧ b (o + 2) = 0x54

/-- The boot sector of a FAT volume -/
def Boot (b : Nat → BitVec 8) : Prop := Signed b ∧ (Fat b 54 ∨ Fat b 82)

/-- Entry `i` of the partition table says that a partition begins in sector `s`. (No volume can begin in the last sector that has a number.) -/
def Partition (b : Nat → BitVec 8) (i s : Nat) : Prop := b (446 + 16 * i + 4) ≠ 0 ∧ le4 b (446 + 16 * i + 8) = s ∧ s ≠ 0 ∧ s ≠ 4294967295

/-- The volume of the disk begins in this sector: the first one, or that of the first of four partitions that is a FAT volume. -/
inductive Begins (disk : Nat → Nat → BitVec 8) : Nat → Prop
  | whole : Boot (disk 0) → Begins disk 0
  | partition {i s : Nat} : Signed (disk 0) → ¬ Boot (disk 0) → i < 4 → Partition (disk 0) i s → Boot (disk s) →
      (∀ j s', j < i → Partition (disk 0) j s' → ¬ Boot (disk s')) → Begins disk s

/-- The volume has a sector of information: how many clusters are free, and where to look for one. -/
def Info (disk : Nat → Nat → BitVec 8) (b : Nat) : Prop :=
  (params (disk b)).ty = .fat32 ∧ le2 (disk b) 48 = 1 ∧ Signed (disk (b + 1)) ∧ le4 (disk (b + 1)) 0 = 0x41615252 ∧ le4 (disk (b + 1)) 484 = 0x61417272

theorem begins_one {disk : Nat → Nat → BitVec 8} {a b : Nat} (ha : Begins disk a) (hb : Begins disk b) : a = b := by
  cases ha with
  | whole h => cases hb with
    | whole _ => rfl
    | partition _ h' => exact absurd h h'
  | @partition i _ _ h1 _ h2 h3 h4 => cases hb with
    | whole h => exact absurd h h1
    | @partition j _ _ _ _ g2 g3 g4 =>
      rcases Nat.lt_trichotomy i j with h | rfl | h
      · exact absurd h3 (g4 i a h h2)
      · rw [← h2.2.1, ← g2.2.1]
      · exact absurd g3 (h4 j b h g2)

end Verif.Fat.Spec
