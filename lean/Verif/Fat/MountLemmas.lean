import Verif.Fat.MountModel
import Verif.Fat.MountSpec
import Verif.Fat.DirLemmas

namespace Verif.Fat

open Spec (Ty Params params le2 le4 Signed Boot Partition Begins)

theorem u32_id {x : Nat} (h : x < 4294967296) : u32 x = x := Nat.mod_eq_of_lt h

theorem pow_bytes : ∀ c : Fin 256, (c.val = 0 ∨ c.val &&& (c.val - 1) ≠ 0) ∨ c.val ∈ [2 ^ 0, 2 ^ 1, 2 ^ 2, 2 ^ 3, 2 ^ 4, 2 ^ 5, 2 ^ 6, 2 ^ 7] := by decide +kernel

theorem pow_and : ∀ k : Fin 8, ¬ (2 ^ k.val = 0 ∨ 2 ^ k.val &&& (2 ^ k.val - 1) ≠ 0) := by decide +kernel

theorem pow_test {c : Nat} (h : c < 256) : ¬ (c = 0 ∨ c &&& (c - 1) ≠ 0) ↔ ∃ k, c = 2 ^ k := by
  constructor
  · intro hc
    have := (pow_bytes ⟨c, h⟩).resolve_left hc
    simp only [List.mem_cons, List.not_mem_nil, or_false] at this
    rcases this with h | h | h | h | h | h | h | h
    all_goals exact ⟨_, h⟩
  · rintro ⟨k, rfl⟩
    have hk : k < 8 := by
      rcases Nat.lt_or_ge k 8 with h' | h'
      · exact h'
      · have := Nat.pow_le_pow_right (n := 2) (by decide) h'
        omega
    exact pow_and ⟨k, hk⟩

/-- What a mounted volume has to be, for the volume that begins in sector `b` and says `p` -/
structure IsGeo (g : Geo) (p : Params) (b : Nat) : Prop where
  ty : g.ty = p.ty
  csize : g.csize = p.perCluster
  nFats : g.nFats = p.tables
  fsize : g.fsize = p.tableSize
  nFatent : g.nFatent = p.clusters + 2
  fatbase : g.fatbase = b + p.reserved
  database : g.database = b + p.system
  nRoot : g.root.nRoot = p.rootEntries
  dirbase : g.root.dirbase = if p.ty = .fat32 then p.rootCluster else b + p.reserved + p.tables * p.tableSize

theorem need {ty : Ty} {n s : Nat} (hn : n + 9 ≤ Spec.range ty) :
    ¬ s < u32 (szbfat ty n + 511) / 512 ↔ Spec.bytes ty n ≤ 512 * s := by
  cases ty
  · have hn : n + 9 ≤ 4096 := hn
    have e : u32 (n * 3) = n * 3 := u32_id (by omega)
    have e2 : n * 3 / 2 + n % 2 = (3 * n + 1) / 2 := by
      rcases Nat.mod_two_eq_zero_or_one n with h | h
      · obtain ⟨m, rfl⟩ : ∃ m, n = 2 * m := ⟨n / 2, by omega⟩
        omega
      · obtain ⟨m, rfl⟩ : ∃ m, n = 2 * m + 1 := ⟨n / 2, by omega⟩
        omega
    show ¬ s < u32 (u32 (u32 (n * 3) / 2 + n % 2) + 511) / 512 ↔ (3 * n + 1) / 2 ≤ 512 * s
    rw [e, e2, u32_id (show (3 * n + 1) / 2 < 4294967296 by omega), u32_id (show (3 * n + 1) / 2 + 511 < 4294967296 by omega)]
    omega
  · have hn : n + 9 ≤ 65536 := hn
    show ¬ s < u32 (u32 (n * 2) + 511) / 512 ↔ 2 * n ≤ 512 * s
    rw [u32_id (show n * 2 < 4294967296 by omega), u32_id (show n * 2 + 511 < 4294967296 by omega)]
    omega
  · have hn : n + 9 ≤ 268435456 := hn
    show ¬ s < u32 (u32 (n * 4) + 511) / 512 ↔ 4 * n ≤ 512 * s
    rw [u32_id (show n * 4 < 4294967296 by omega), u32_id (show n * 4 + 511 < 4294967296 by omega)]
    omega

/-- The boot sector is accepted exactly if it describes a volume, and what is taken from it is what it says. -/
theorem geometry_right {w : Sector} {b : Nat} (hf : (params w).Fits b) :
    match geometry w b with
    | none => ¬ (params w).Sound
    | some g => (params w).Sound ∧ IsGeo g (params w) b := by
  obtain ⟨f1, f2, f3⟩ := hf
  have hfs : (if ldWord w 22 = 0 then ldDword w 36 else ldWord w 22) = (params w).tableSize := by
    simp only [ld_le2, ld_le4, params]
    by_cases h : le2 w 22 = 0
    · rw [if_pos h, if_neg (by omega)]
    · rw [if_neg h, if_pos h]
  have hts : (if ldWord w 19 = 0 then ldDword w 32 else ldWord w 19) = (params w).sectors := by
    simp only [ld_le2, ld_le4, params]
    by_cases h : le2 w 19 = 0
    · rw [if_pos h, if_neg (by omega)]
    · rw [if_neg h, if_pos h]
  have hnf : (w 16).toNat = (params w).tables := rfl
  have hcs : (w 13).toNat = (params w).perCluster := rfl
  have hnr : ldWord w 17 = (params w).rootEntries := ld_le2 w 17
  have hrs : ldWord w 14 = (params w).reserved := ld_le2 w 14
  have hbs : ldWord w 11 = (params w).bytes := ld_le2 w 11
  have hrc : ldDword w 44 = (params w).rootCluster := ld_le4 w 44
  have hclt : (params w).perCluster < 256 := (w 13).isLt
  have hrl : (params w).rootEntries < 65536 := le2_lt w 17
  have hsl : (params w).sectors < 4294967296 := by
    show (if le2 w 19 ≠ 0 then le2 w 19 else le4 w 32) < _
    have := le2_lt w 19
    have := le4_lt w 32
    split <;> omega
  unfold geometry
  rw [hfs, hts, hnf, hcs, hnr, hrs, hbs, hrc]
  generalize params w = p at *
  clear hfs hts hnf hcs hnr hrs hbs hrc
  have hsys : p.system = p.reserved + p.tables * p.tableSize + p.rootEntries / 16 := by
    show p.reserved + p.tables * p.tableSize + p.rootEntries * 32 / 512 = _
    have : p.rootEntries * 32 / 512 = p.rootEntries / 16 := by omega
    rw [this]
  have e1 : u32 (p.tableSize * p.tables) = p.tables * p.tableSize := by
    rw [Nat.mul_comm]
    apply u32_id
    generalize p.tables * p.tableSize = N at *
    omega
  have e2 : u32 (p.reserved + p.tables * p.tableSize + p.rootEntries / 16) = p.system := by
    rw [← hsys]
    exact u32_id f1
  have e3 : (if (p.sectors - p.system) / p.perCluster ≥ 65526 then Ty.fat32 else if (p.sectors - p.system) / p.perCluster ≥ 4086 then Ty.fat16 else Ty.fat12) = p.ty := by
    show _ = (if p.clusters ≤ 4085 then Ty.fat12 else if p.clusters ≤ 65525 then .fat16 else .fat32)
    show (if p.clusters ≥ 65526 then Ty.fat32 else if p.clusters ≥ 4086 then Ty.fat16 else Ty.fat12) = _
    by_cases h1 : p.clusters ≤ 4085
    · rw [if_neg (by omega), if_neg (by omega), if_pos h1]
    · by_cases h2 : p.clusters ≤ 65525
      · rw [if_neg (by omega), if_pos (by omega), if_neg h1, if_pos h2]
      · rw [if_pos (by omega), if_neg h1, if_neg h2]
  have e4 : (p.sectors - p.system) / p.perCluster = p.clusters := rfl
  have e5 : u32 (p.clusters + 2) = p.clusters + 2 := u32_id (by omega)
  have hr : p.clusters + 2 + 9 ≤ Spec.range p.ty := by
    show _ ≤ Spec.range (if p.clusters ≤ 4085 then Ty.fat12 else if p.clusters ≤ 65525 then .fat16 else .fat32)
    split
    · show _ ≤ 4096; omega
    · split
      · show _ ≤ 65536; omega
      · show _ ≤ 268435456; omega
  dsimp only
  rw [e1, e2, e3, e4, e5]
  by_cases c1 : p.bytes ≠ 512
  · rw [if_pos c1]
    exact fun h => c1 h.bytes
  rw [if_neg c1]
  by_cases c2 : p.tables ≠ 1 ∧ p.tables ≠ 2
  · rw [if_pos c2]
    intro h
    have := h.tables
    omega
  rw [if_neg c2]
  by_cases c3 : p.perCluster = 0 ∨ p.perCluster &&& (p.perCluster - 1) ≠ 0
  · rw [if_pos c3]
    exact fun h => (pow_test hclt).2 h.power c3
  rw [if_neg c3]
  by_cases c4 : p.rootEntries % 16 ≠ 0
  · rw [if_pos c4]
    intro h
    have := h.whole
    omega
  rw [if_neg c4]
  by_cases c5 : p.reserved = 0
  · rw [if_pos c5]
    intro h
    have := h.reserved
    omega
  rw [if_neg c5]
  by_cases c6 : p.sectors < p.system
  · rw [if_pos c6]
    intro h
    have := h.room
    omega
  rw [if_neg c6]
  by_cases c7 : p.clusters = 0
  · rw [if_pos c7]
    intro h
    have := h.some
    omega
  rw [if_neg c7]
  by_cases c8 : p.ty = .fat32 ∧ p.rootEntries ≠ 0
  · rw [if_pos c8]
    exact fun h => c8.2 (h.root.1 c8.1)
  rw [if_neg c8]
  by_cases c9 : p.ty ≠ .fat32 ∧ p.rootEntries = 0
  · rw [if_pos c9]
    exact fun h => c9.1 (h.root.2 c9.2)
  rw [if_neg c9]
  have hneed := need (s := p.tableSize) hr
  by_cases c10 : p.tableSize < u32 (szbfat p.ty (p.clusters + 2) + 511) / 512
  · rw [if_pos c10]
    exact fun h => hneed.2 h.table c10
  rw [if_neg c10]
  have hpos : 0 < p.clusters := by omega
  have hroom : p.system < p.sectors := by
    rcases Nat.lt_or_ge p.system p.sectors with h | h
    · exact h
    · have : p.clusters = 0 := by
        show (p.sectors - p.system) / p.perCluster = 0
        rw [Nat.sub_eq_zero_of_le h, Nat.zero_div]
      omega
  have hres : b + p.reserved + p.tables * p.tableSize < 4294967296 := by
    generalize p.tables * p.tableSize = N at *
    omega
  refine ⟨⟨by omega, (pow_test hclt).1 c3, by omega, by omega, by omega, by omega, by omega, ⟨fun h => ?_, fun h => ?_⟩, hneed.1 c10⟩,
    ⟨rfl, rfl, rfl, rfl, rfl, u32_id (by omega), u32_id (by omega), rfl, ?_⟩⟩
  · by_cases h' : p.rootEntries = 0
    · exact h'
    · exact absurd ⟨h, h'⟩ c8
  · by_cases h' : p.ty = .fat32
    · exact h'
    · exact absurd ⟨h', h⟩ c9
  · show (if p.ty = .fat32 then p.rootCluster else u32 (u32 (b + p.reserved) + p.tables * p.tableSize)) = _
    rw [u32_id (show b + p.reserved < 4294967296 by omega), u32_id hres]

theorem byte_eq {x : BitVec 8} {n : Nat} (h : n < 256) : x = BitVec.ofNat 8 n ↔ x.toNat = n := by
  constructor
  · rintro rfl
    rw [BitVec.toNat_ofNat]
    exact Nat.mod_eq_of_lt h
  · intro hx
    apply BitVec.eq_of_toNat_eq
    rw [hx, BitVec.toNat_ofNat]
    exact (Nat.mod_eq_of_lt h).symm

theorem signed_test (w : Sector) : ldWord w 510 = 0xAA55 ↔ Signed w := by
  rw [ld_le2]
  unfold le2 Signed
  rw [show (0x55 : BitVec 8) = BitVec.ofNat 8 85 from rfl, show (0xAA : BitVec 8) = BitVec.ofNat 8 170 from rfl, byte_eq (by decide), byte_eq (by decide)]
  have h1 := (w 510).isLt
  have h2 := (w 511).isLt
  show (w 510).toNat + 256 * (w 511).toNat = _ ↔ _
  omega

theorem fat_test (w : Sector) (o : Nat) : ldDword w o &&& 0xFFFFFF = 0x544146 ↔ Spec.Fat w o := by
  rw [ld_le4, show (0xFFFFFF : Nat) = 2 ^ 24 - 1 from rfl, Nat.and_two_pow_sub_one_eq_mod]
  unfold le4 Spec.Fat
  rw [show (0x46 : BitVec 8) = BitVec.ofNat 8 70 from rfl, show (0x41 : BitVec 8) = BitVec.ofNat 8 65 from rfl, show (0x54 : BitVec 8) = BitVec.ofNat 8 84 from rfl,
    byte_eq (by decide), byte_eq (by decide), byte_eq (by decide)]
  have h1 := (w o).isLt
  have h2 := (w (o + 1)).isLt
  have h3 := (w (o + 2)).isLt
  have h4 := (w (o + 3)).isLt
  omega

/-- What `check_fs` says of the sector in the window -/
theorem judge (w : Sector) {f : Fs} (hf : f.win = w) :
    let r := (if ldWord f.win 510 ≠ 0xAA55 then (f, 2)
      else if ldDword f.win 54 &&& 0xFFFFFF = 0x544146 then (f, 0)
      else if ldDword f.win 82 &&& 0xFFFFFF = 0x544146 then (f, 0) else (f, 1) : Fs × Nat)
    r.1 = f ∧ (r.2 = 0 ↔ Boot w) ∧ (r.2 = 1 ↔ Signed w ∧ ¬ Boot w) ∧ r.2 ≠ 3 := by
  subst hf
  have h1 := signed_test f.win
  have h2 := fat_test f.win 54
  have h3 := fat_test f.win 82
  dsimp only
  unfold Boot
  by_cases a : Signed f.win
  · rw [if_neg (fun h => h (h1.2 a))]
    by_cases b : Spec.Fat f.win 54
    · rw [if_pos (h2.2 b)]
      exact ⟨rfl, ⟨fun _ => ⟨a, .inl b⟩, fun _ => rfl⟩, ⟨nofun, fun h => absurd ⟨a, .inl b⟩ h.2⟩, nofun⟩
    · rw [if_neg (fun h => b (h2.1 h))]
      by_cases c : Spec.Fat f.win 82
      · rw [if_pos (h3.2 c)]
        exact ⟨rfl, ⟨fun _ => ⟨a, .inr c⟩, fun _ => rfl⟩, ⟨nofun, fun h => absurd ⟨a, .inr c⟩ h.2⟩, nofun⟩
      · rw [if_neg (fun h => c (h3.1 h))]
        exact ⟨rfl, ⟨nofun, fun h => absurd h.2 (by rintro (h | h); exacts [b h, c h])⟩, ⟨fun _ => ⟨a, fun h => absurd h.2 (by rintro (h | h); exacts [b h, c h])⟩, fun _ => rfl⟩, nofun⟩
  · rw [if_pos (fun h => a (h1.1 h))]
    exact ⟨rfl, ⟨nofun, fun h => absurd h.1 a⟩, ⟨nofun, fun h => absurd h.1 a⟩, nofun⟩

/-- `check_fs` of a disk that works: the sector is in the window, except if its number is that of an empty window. -/
theorem checkFs_quiet {env : Env} (hq : Quiet env) (fs : Fs) (s : Nat) :
    ∃ w t, (fs.checkFs env s).1 = { fs with wflag := false, winsect := s, win := w, t := t } ∧ (w = if s = 0xFFFFFFFF then fs.win else fs.disk s) ∧
      ((fs.checkFs env s).2 = 0 ↔ Boot w) ∧ ((fs.checkFs env s).2 = 1 ↔ Signed w ∧ ¬ Boot w) ∧ (fs.checkFs env s).2 ≠ 3 := by
  have hm : ∃ w t, Fs.move env { fs with wflag := false, winsect := 0xFFFFFFFF } s = ({ fs with wflag := false, winsect := s, win := w, t := t }, true) ∧
      w = if s = 0xFFFFFFFF then fs.win else fs.disk s := by
    by_cases h : s = 0xFFFFFFFF
    · subst h
      refine ⟨fs.win, fs.t, ?_, (if_pos rfl).symm⟩
      unfold Fs.move
      rw [if_neg (fun h => h rfl)]
    · refine ⟨fs.disk s, fs.t + 1, ?_, (if_neg h).symm⟩
      unfold Fs.move
      rw [if_pos h]
      unfold Fs.sync Fs.read
      have h0 := hq fs.t
      simp [h0]
  obtain ⟨w, t, hm, hw⟩ := hm
  refine ⟨w, t, ?_⟩
  unfold Fs.checkFs
  rw [hm]
  dsimp only
  rw [if_neg (by decide)]
  obtain ⟨a, b, c, d⟩ := judge w (f := { fs with wflag := false, winsect := s, win := w, t := t }) rfl
  exact ⟨a, hw, b, c, d⟩

/-- The number can be that of the first sector of a partition. -/
def Real (s : Nat) : Prop := s ≠ 0 ∧ s ≠ 4294967295

theorem tryParts_quiet {env : Env} (hq : Quiet env) {D : Nat → Sector} : ∀ (bs : List Nat) (fs : Fs) (b : Nat), fs.disk = D → ¬ Boot fs.win →
    (fs.tryParts env b bs).2.2 ≠ 3 ∧
    ((fs.tryParts env b bs).2.2 = 0 → ∃ (i s t : Nat), (b :: bs)[i]? = some s ∧ Real s ∧ Boot (D s) ∧ (∀ (j s' : Nat), j < i → (b :: bs)[j]? = some s' → Real s' → ¬ Boot (D s')) ∧
      (fs.tryParts env b bs).1 = { fs with wflag := false, winsect := s, win := D s, t := t } ∧ (fs.tryParts env b bs).2.1 = s) ∧
    ((fs.tryParts env b bs).2.2 ≠ 0 → ∀ s' ∈ b :: bs, Real s' → ¬ Boot (D s'))
  | bs, fs, b, hd, hw => by
    have h1 : (fs.tryPart env b).2 ≠ 3 ∧ (fs.tryPart env b).1.disk = D ∧
        (((fs.tryPart env b).2 = 0 ∧ Real b ∧ Boot (D b) ∧ ∃ t, (fs.tryPart env b).1 = { fs with wflag := false, winsect := b, win := D b, t := t }) ∨
         ((fs.tryPart env b).2 ≠ 0 ∧ (Real b → ¬ Boot (D b)) ∧ ¬ Boot (fs.tryPart env b).1.win ∧
           ∃ v s w t, (fs.tryPart env b).1 = { fs with wflag := v, winsect := s, win := w, t := t })) := by
      unfold Fs.tryPart
      by_cases hb : b ≠ 0
      · rw [if_pos hb]
        obtain ⟨w, t, e1, e2, e3, e4, e5⟩ := checkFs_quiet hq fs b
        refine ⟨e5, by rw [e1]; exact hd, ?_⟩
        rw [e1]
        by_cases hf : b = 0xFFFFFFFF
        · rw [if_pos hf] at e2
          subst e2
          exact .inr ⟨fun h => hw (e3.1 h), fun h => absurd hf h.2, hw, _, _, _, _, rfl⟩
        · rw [if_neg hf, hd] at e2
          subst e2
          by_cases hB : Boot (D b)
          · exact .inl ⟨e3.2 hB, ⟨hb, hf⟩, hB, t, rfl⟩
          · exact .inr ⟨fun h => hB (e3.1 h), fun _ => hB, hB, _, _, _, _, rfl⟩
      · rw [if_neg hb]
        exact ⟨nofun, hd, .inr ⟨nofun, fun h => absurd h.1 hb, hw, _, _, _, _, rfl⟩⟩
    obtain ⟨n3, hd', h1⟩ := h1
    cases bs with
    | nil =>
      unfold Fs.tryParts
      dsimp only
      refine ⟨n3, fun h => ?_, fun h => ?_⟩
      · rcases h1 with ⟨_, r1, r2, t, r3⟩ | ⟨r, _⟩
        · exact ⟨0, b, t, rfl, r1, r2, fun j _ hj => absurd hj (by omega), r3, rfl⟩
        · exact absurd h r
      · rcases h1 with ⟨r, _⟩ | ⟨_, r, _⟩
        · exact absurd r h
        · intro s' hs'
          rw [List.mem_singleton.1 hs']
          exact r
    | cons b' bs =>
      unfold Fs.tryParts
      dsimp only
      rcases h1 with ⟨r0, r1, r2, t, r3⟩ | ⟨r0, r1, r2, v, s, w, t, r3⟩
      · rw [if_neg (fun h => h r0)]
        exact ⟨n3, fun _ => ⟨0, b, t, rfl, r1, r2, fun j _ hj => absurd hj (by omega), r3, rfl⟩, fun h => absurd r0 h⟩
      · rw [if_pos r0]
        obtain ⟨g1, g2, g3⟩ := tryParts_quiet hq bs (fs.tryPart env b).1 b' hd' r2
        refine ⟨g1, fun h => ?_, fun h s' hs' => ?_⟩
        · obtain ⟨i, s1, t1, q1, q2, q3, q4, q5, q6⟩ := g2 h
          refine ⟨i + 1, s1, t1, q1, q2, q3, ?_, by rw [q5, r3], q6⟩
          intro j s' hj hs'
          cases j with
          | zero =>
            rw [← Option.some.inj hs']
            exact r1
          | succ j => exact q4 j s' (by omega) hs'
        · rcases List.mem_cons.1 hs' with rfl | hs'
          · exact r1
          · exact g3 h s' hs'

/-- Moving a window that is not changed writes nothing. -/
theorem move_clean (env : Env) (fs : Fs) (s : Nat) (h : fs.wflag = false) : ∃ w x t, (fs.move env s).1 = { fs with winsect := x, win := w, t := t } := by
  unfold Fs.move
  split
  · have e : fs.sync env = (fs, true) := by
      unfold Fs.sync
      rw [h]
      rfl
    rw [e]
    dsimp only
    rw [if_pos rfl]
    unfold Fs.read
    split
    · exact ⟨_, _, _, rfl⟩
    · exact ⟨_, _, _, rfl⟩
  · exact ⟨_, _, _, rfl⟩

theorem checkFs_clean (env : Env) (fs : Fs) (s : Nat) : ∃ w x t, (fs.checkFs env s).1 = { fs with wflag := false, winsect := x, win := w, t := t } := by
  obtain ⟨w, x, t, h⟩ := move_clean env { fs with wflag := false, winsect := 0xFFFFFFFF } s rfl
  refine ⟨w, x, t, ?_⟩
  unfold Fs.checkFs
  dsimp only
  repeat' split
  all_goals exact h

theorem tryParts_clean (env : Env) : ∀ (bs : List Nat) (fs : Fs) (b : Nat), fs.wflag = false → ∃ w x t, (fs.tryParts env b bs).1 = { fs with winsect := x, win := w, t := t }
  | bs, fs, b, h => by
    have h1 : ∃ w x t, (fs.tryPart env b).1 = { fs with winsect := x, win := w, t := t } := by
      unfold Fs.tryPart
      split
      · obtain ⟨w, x, t, e⟩ := checkFs_clean env fs b
        exact ⟨w, x, t, by rw [e, ← h]⟩
      · exact ⟨_, _, _, rfl⟩
    obtain ⟨w, x, t, e⟩ := h1
    cases bs with
    | nil => exact ⟨w, x, t, e⟩
    | cons b' bs =>
      unfold Fs.tryParts
      dsimp only
      split
      · obtain ⟨w', x', t', e'⟩ := tryParts_clean env bs (fs.tryPart env b).1 b' (by rw [e]; exact h)
        exact ⟨w', x', t', by rw [e', e]⟩
      · exact ⟨w, x, t, e⟩

end Verif.Fat
