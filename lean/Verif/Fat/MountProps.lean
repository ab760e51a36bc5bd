import Verif.Fat.MountLemmas
import Verif.Fat.DirProps

/-!
# Properties of mounting a FatFs volume
-/

namespace Verif.Fat

open Spec (Ty Params params le2 le4 Signed Boot Partition Begins Info)

/-- `fs` and `rt` are the volume that begins in sector `b` of the disk: as its boot sector says, with a window that is not changed. -/
structure Mounted (fs : Fs) (rt : Root) (D : Nat → Sector) (b : Nat) : Prop where
  ty : fs.ty = (params (D b)).ty
  csize : fs.csize = (params (D b)).perCluster
  nFats : fs.nFats = (params (D b)).tables
  fsize : fs.fsize = (params (D b)).tableSize
  nFatent : fs.nFatent = (params (D b)).clusters + 2
  fatbase : fs.fatbase = b + (params (D b)).reserved
  database : fs.database = b + (params (D b)).system
  nRoot : rt.nRoot = (params (D b)).rootEntries
  dirbase : rt.dirbase = if fs.ty = .fat32 then (params (D b)).rootCluster else fs.fatbase + fs.nFats * fs.fsize
  disk : fs.disk = D
  clean : fs.wflag = false
  win : fs.win = D fs.winsect
  at_ : fs.winsect = b ∨ (fs.ty = .fat32 ∧ le2 (D b) 48 = 1 ∧ fs.winsect = b + 1)
  info : Info D b → fs.freeClust = le4 (D (b + 1)) 488 ∧ fs.lastClust = le4 (D (b + 1)) 492
  noInfo : ¬ Info D b → fs.freeClust = 0xFFFFFFFF ∧ fs.lastClust = 0xFFFFFFFF

theorem fsinfo_quiet {env : Env} (hq : Quiet env) {f : Fs} {g : Geo} {D : Nat → Sector} {b : Nat} (hd : f.disk = D) (hc : f.wflag = false) (hs : f.winsect = b) (hw : f.win = D b)
    (hb : b + 1 < 4294967296) (hg : IsGeo g (params (D b)) b) : Mounted ((f.take g).fsinfo env b) g.root D b := by
  have hdir : g.root.dirbase = if g.ty = .fat32 then (params (D b)).rootCluster else g.fatbase + g.nFats * g.fsize := by
    rw [hg.dirbase, hg.ty, hg.fatbase, hg.nFats, hg.fsize]
  unfold Fs.fsinfo
  by_cases h1 : (f.take g).ty = .fat32 ∧ ldWord (f.take g).win 48 = 1
  · rw [if_pos h1]
    obtain ⟨h1, h2⟩ := h1
    have h1 : g.ty = .fat32 := h1
    have h2 : le2 (D b) 48 = 1 := by
      rw [← ld_le2, ← hw]
      exact h2
    have hm : (f.take g).move env (u32 (b + 1)) = ({ f.take g with winsect := b + 1, win := D (b + 1), t := f.t + 1 }, true) := by
      rw [u32_id hb]
      unfold Fs.move Fs.take
      dsimp only
      rw [if_pos (by rw [hs]; omega)]
      unfold Fs.sync Fs.read
      have h0 := hq f.t
      simp [h0, hc, hd]
    rw [hm]
    dsimp only
    rw [if_pos rfl]
    by_cases h3 : ldWord (D (b + 1)) 510 = 0xAA55 ∧ ldDword (D (b + 1)) 0 = 0x41615252 ∧ ldDword (D (b + 1)) 484 = 0x61417272
    · rw [if_pos h3, ld_le4, ld_le4]
      rw [ld_le4, ld_le4, signed_test] at h3
      have hi : Info D b := ⟨hg.ty.symm.trans h1, h2, h3⟩
      exact ⟨hg.ty, hg.csize, hg.nFats, hg.fsize, hg.nFatent, hg.fatbase, hg.database, hg.nRoot, hdir, hd, hc, rfl, .inr ⟨h1, h2, rfl⟩, fun _ => ⟨rfl, rfl⟩, fun h => absurd hi h⟩
    · rw [if_neg h3]
      rw [ld_le4, ld_le4, signed_test] at h3
      exact ⟨hg.ty, hg.csize, hg.nFats, hg.fsize, hg.nFatent, hg.fatbase, hg.database, hg.nRoot, hdir, hd, hc, rfl, .inr ⟨h1, h2, rfl⟩, fun h => absurd h.2.2 h3, fun _ => ⟨rfl, rfl⟩⟩
  · rw [if_neg h1]
    refine ⟨hg.ty, hg.csize, hg.nFats, hg.fsize, hg.nFatent, hg.fatbase, hg.database, hg.nRoot, hdir, hd, hc, ?_, .inl hs, fun h => ?_, fun _ => ⟨rfl, rfl⟩⟩
    · show f.win = D f.winsect
      rw [hs, hw]
    · refine absurd ⟨hg.ty.trans h.1, ?_⟩ h1
      show ldWord f.win 48 = 1
      rw [hw, ld_le2]
      exact h.2.1

/-- Where the search of `find_volume` ends on a disk that works -/
theorem search_quiet {env : Env} (hq : Quiet env) (fs : Fs) :
    let c := fs.checkFs env 0
    let r := if c.2 = 1 then c.1.tryParts env (part c.1.win 0) [part c.1.win 1, part c.1.win 2, part c.1.win 3] else (c.1, 0, c.2)
    r.2.2 ≠ 3 ∧ (r.2.2 = 0 → ∃ b t, Begins fs.disk b ∧ r.1 = { fs with wflag := false, winsect := b, win := fs.disk b, t := t } ∧ r.2.1 = b) ∧
      (r.2.2 ≠ 0 → ∀ b, ¬ Begins fs.disk b) := by
  obtain ⟨w, t, e1, e2, e3, e4, e5⟩ := checkFs_quiet hq fs 0
  rw [if_neg (by decide)] at e2
  subst e2
  have hpart : ∀ i s, part (fs.disk 0) i = s → (Real s ↔ Partition (fs.disk 0) i s) := by
    intro i s hs
    have hb0 : fs.disk 0 (446 + i * 16 + 4) ≠ 0 ↔ (fs.disk 0 (446 + i * 16 + 4)).toNat ≠ 0 := by
      constructor
      · intro h h'
        exact h (BitVec.eq_of_toNat_eq h')
      · intro h h'
        exact h (by rw [h']; rfl)
    unfold part at hs
    unfold Real Partition
    rw [Nat.mul_comm 16 i, hb0]
    rw [ld_le4] at hs
    by_cases h : (fs.disk 0 (446 + i * 16 + 4)).toNat ≠ 0
    · rw [if_pos h] at hs
      exact ⟨fun hr => ⟨h, hs, hr⟩, fun hp => hp.2.2⟩
    · rw [if_neg h] at hs
      exact ⟨fun hr => absurd hs.symm hr.1, fun hp => absurd hp.1 h⟩
  dsimp only
  by_cases h1 : (fs.checkFs env 0).2 = 1
  · rw [if_pos h1, e1]
    dsimp only
    obtain ⟨s1, s2⟩ := e4.1 h1
    obtain ⟨g1, g2, g3⟩ := tryParts_quiet hq (D := fs.disk) [part (fs.disk 0) 1, part (fs.disk 0) 2, part (fs.disk 0) 3]
      { fs with wflag := false, winsect := 0, win := fs.disk 0, t := t } (part (fs.disk 0) 0) rfl s2
    have hget : ∀ i s, [part (fs.disk 0) 0, part (fs.disk 0) 1, part (fs.disk 0) 2, part (fs.disk 0) 3][i]? = some s → i < 4 ∧ part (fs.disk 0) i = s := by
      intro i s h
      match i, h with
      | 0, h => exact ⟨by decide, Option.some.inj h⟩
      | 1, h => exact ⟨by decide, Option.some.inj h⟩
      | 2, h => exact ⟨by decide, Option.some.inj h⟩
      | 3, h => exact ⟨by decide, Option.some.inj h⟩
      | n + 4, h => exact absurd h (by simp)
    have hput : ∀ i, i < 4 → [part (fs.disk 0) 0, part (fs.disk 0) 1, part (fs.disk 0) 2, part (fs.disk 0) 3][i]? = some (part (fs.disk 0) i) := by
      intro i h
      match i, h with
      | 0, _ => rfl
      | 1, _ => rfl
      | 2, _ => rfl
      | 3, _ => rfl
      | n + 4, h => omega
    have hval : ∀ i s, Partition (fs.disk 0) i s → part (fs.disk 0) i = s := by
      intro i s h
      unfold part
      have h0 : (fs.disk 0 (446 + i * 16 + 4)).toNat ≠ 0 := by
        intro h'
        refine h.1 (BitVec.eq_of_toNat_eq ?_)
        rw [Nat.mul_comm 16 i]
        exact h'
      rw [if_pos h0, ld_le4, ← h.2.1, Nat.mul_comm 16 i]
    refine ⟨g1, fun h => ?_, fun h b hb => ?_⟩
    · obtain ⟨i, s, t', q1, q2, q3, q4, q5, q6⟩ := g2 h
      obtain ⟨i4, q1⟩ := hget i s q1
      refine ⟨s, t', .partition s1 s2 i4 ((hpart i s q1).1 q2) q3 ?_, q5, q6⟩
      intro j s' hj hp
      have hv := hval j s' hp
      exact q4 j s' hj (by rw [hput j (by omega), hv]) ((hpart j s' hv).2 hp)
    · cases hb with
      | whole hB => exact s2 hB
      | @partition i _ _ _ i4 hp hB _ =>
        have hv := hval i b hp
        exact g3 h b (List.mem_of_getElem? (by rw [hput i i4, hv])) ((hpart i b hv).2 hp) hB
  · rw [if_neg h1]
    refine ⟨e5, fun h => ⟨0, t, .whole (e3.1 h), e1, rfl⟩, fun h b hb => ?_⟩
    cases hb with
    | whole hB => exact h (e3.2 hB)
    | partition s1 s2 => exact h1 (e4.2 ⟨s1, s2⟩)

/-- Mounting, on a disk that works: if the volume of the disk can be addressed, it is mounted exactly if its boot sector describes a volume, and then everything is as the boot sector
says; no error is reported instead. Missing: volumes that are too large for the numbers, see `tables_vanish`, `short_table`, `past_the_end` and `too_many_clusters`. -/
theorem mount_right_partial {env : Env} (hq : Quiet env) (fs : Fs) (hf : ∀ b, Begins fs.disk b → (params (fs.disk b)).Fits b) :
    match fs.findVolume env with
    | .ok fs' rt => ∃ b, Begins fs.disk b ∧ (params (fs.disk b)).Sound ∧ Mounted fs' rt fs.disk b
    | .noFilesystem => ∀ b, Begins fs.disk b → ¬ (params (fs.disk b)).Sound
    | .diskErr => False := by
  unfold Fs.findVolume
  dsimp only
  obtain ⟨h1, h2, h3⟩ := search_quiet hq fs
  generalize (if (fs.checkFs env 0).2 = 1 then (fs.checkFs env 0).1.tryParts env (part (fs.checkFs env 0).1.win 0)
    [part (fs.checkFs env 0).1.win 1, part (fs.checkFs env 0).1.win 2, part (fs.checkFs env 0).1.win 3] else ((fs.checkFs env 0).1, 0, (fs.checkFs env 0).2)) = r at *
  rw [if_neg h1]
  by_cases h0 : r.2.2 ≠ 0
  · rw [if_pos h0]
    exact fun b hb => absurd hb (h3 h0 b)
  · rw [if_neg h0]
    obtain ⟨b, t, hb, e1, e2⟩ := h2 (by omega)
    have hfit := hf b hb
    have hg := geometry_right hfit
    rw [e1, e2]
    dsimp only
    generalize hgeo : geometry (fs.disk b) b = o at *
    cases o with
    | none =>
      dsimp only at hg ⊢
      intro b' hb'
      rw [Spec.begins_one hb' hb]
      exact hg
    | some g =>
      dsimp only at hg ⊢
      refine ⟨b, hb, hg.1, fsinfo_quiet hq rfl rfl rfl rfl ?_ hg.2⟩
      have k1 := hg.1.some
      have k2 := hg.1.reserved
      have k3 := hfit.ends
      have k4 : (params (fs.disk b)).reserved ≤ (params (fs.disk b)).system := by
        show _ ≤ _ + _ + _
        omega
      have k5 : (params (fs.disk b)).system < (params (fs.disk b)).sectors := by
        rcases Nat.lt_or_ge (params (fs.disk b)).system (params (fs.disk b)).sectors with h | h
        · exact h
        · have : (params (fs.disk b)).clusters = 0 := by
            show ((params (fs.disk b)).sectors - (params (fs.disk b)).system) / _ = 0
            rw [Nat.sub_eq_zero_of_le h, Nat.zero_div]
          omega
      omega

/-- Mounting writes nothing, whatever the disk does. -/
theorem mount_writes_nothing (env : Env) (fs : Fs) {fs' : Fs} {rt : Root} (h : fs.findVolume env = .ok fs' rt) : fs'.disk = fs.disk ∧ fs'.wflag = false := by
  unfold Fs.findVolume at h
  dsimp only at h
  obtain ⟨w, x, t, e1⟩ := checkFs_clean env fs 0
  have hr : ∃ w x t, (if (fs.checkFs env 0).2 = 1 then (fs.checkFs env 0).1.tryParts env (part (fs.checkFs env 0).1.win 0)
    [part (fs.checkFs env 0).1.win 1, part (fs.checkFs env 0).1.win 2, part (fs.checkFs env 0).1.win 3] else ((fs.checkFs env 0).1, 0, (fs.checkFs env 0).2)).1 =
      { fs with wflag := false, winsect := x, win := w, t := t } := by
    split
    · obtain ⟨w', x', t', e⟩ := tryParts_clean env [part (fs.checkFs env 0).1.win 1, part (fs.checkFs env 0).1.win 2, part (fs.checkFs env 0).1.win 3]
        (fs.checkFs env 0).1 (part (fs.checkFs env 0).1.win 0) (by rw [e1])
      exact ⟨w', x', t', by rw [e, e1]⟩
    · exact ⟨w, x, t, e1⟩
  generalize (if (fs.checkFs env 0).2 = 1 then (fs.checkFs env 0).1.tryParts env (part (fs.checkFs env 0).1.win 0)
    [part (fs.checkFs env 0).1.win 1, part (fs.checkFs env 0).1.win 2, part (fs.checkFs env 0).1.win 3] else ((fs.checkFs env 0).1, 0, (fs.checkFs env 0).2)) = r at *
  obtain ⟨w', x', t', hr⟩ := hr
  split at h
  · exact nomatch h
  · split at h
    · exact nomatch h
    · split at h
      · exact nomatch h
      · rename_i g _
        injection h with h1 _
        rw [← h1]
        have hc : (r.1.take g).wflag = false := by
          show r.1.wflag = false
          rw [hr]
        have hd : (r.1.take g).disk = fs.disk := by
          show r.1.disk = fs.disk
          rw [hr]
        obtain ⟨w2, x2, t2, e2⟩ := move_clean env (r.1.take g) (u32 (r.2.1 + 1)) hc
        unfold Fs.fsinfo
        split
        · dsimp only
          split
          · split
            · dsimp only
              rw [e2]
              exact ⟨hd, hc⟩
            · dsimp only
              rw [e2]
              exact ⟨hd, hc⟩
          · rw [e2]
            exact ⟨hd, hc⟩
        · exact ⟨hd, hc⟩

/-- If the first sector of the disk cannot be read, that is reported. -/
theorem mount_error (env : Env) (fs : Fs) (h : env.fail fs.t = true) : fs.findVolume env = .diskErr := by
  have e : (fs.checkFs env 0).2 = 3 := by
    unfold Fs.checkFs Fs.move Fs.sync Fs.read
    simp [h]
  unfold Fs.findVolume
  dsimp only
  rw [if_neg (show (fs.checkFs env 0).2 ≠ 1 by rw [e]; decide), if_pos (by exact e)]

/-- What is mounted is laid out as the properties of tables, files and directories need it. -/
theorem mounted_ok {fs : Fs} {rt : Root} {D : Nat → Sector} {b : Nat} (hm : Mounted fs rt D b) (hs : (params (D b)).Sound) (hf : (params (D b)).Fits b) : fs.Ok := by
  obtain ⟨m1, m2, m3, m4, m5, m6, m7, m8, m9, m10, m11, m12, m13, _, _⟩ := hm
  obtain ⟨s1, s2, s3, s4, s5, s6, s7, s8, s9⟩ := hs
  obtain ⟨f1, f2, f3⟩ := hf
  have hc : 1 ≤ (params (D b)).perCluster := by
    obtain ⟨k, hk⟩ := s2
    rw [hk]
    exact Nat.pow_pos (by decide)
  have hfit : (params (D b)).perCluster * (params (D b)).clusters ≤ (params (D b)).sectors - (params (D b)).system := by
    show (params (D b)).perCluster * (((params (D b)).sectors - (params (D b)).system) / (params (D b)).perCluster) ≤ _
    exact Nat.mul_div_le _ _
  have hr : (params (D b)).clusters + 2 + 9 ≤ Spec.range (params (D b)).ty := by
    show _ ≤ Spec.range (if (params (D b)).clusters ≤ 4085 then Ty.fat12 else if (params (D b)).clusters ≤ 65525 then .fat16 else .fat32)
    split
    · show _ ≤ 4096; omega
    · split
      · show _ ≤ 65536; omega
      · show _ ≤ 268435456; omega
  have hsys : (params (D b)).system = (params (D b)).reserved + (params (D b)).tables * (params (D b)).tableSize + (params (D b)).rootEntries * 32 / 512 := rfl
  have htab : 1 ≤ (params (D b)).tableSize := by
    have : 1 ≤ Spec.bytes (params (D b)).ty ((params (D b)).clusters + 2) := by
      unfold Spec.bytes
      split <;> omega
    omega
  have hnum : (params (D b)).tableSize ≤ (params (D b)).tables * (params (D b)).tableSize := Nat.le_mul_of_pos_left _ (by omega)
  have hw : fs.winsect ≤ b + 1 := by
    rcases m13 with h | ⟨_, _, h⟩ <;> omega
  refine ⟨⟨by omega, by omega, ?_, ?_, ?_, ?_, by omega⟩, fun _ => by rw [m12, m10], ?_, by omega⟩
  · rw [m6, m3, m4, m7]
    generalize (params (D b)).tables * (params (D b)).tableSize = N at *
    omega
  · rw [m7, m2, m5, Nat.add_sub_cancel]
    generalize (params (D b)).perCluster * (params (D b)).clusters = N at *
    omega
  · rw [m1, m5, m4]
    exact s9
  · rw [m1, m5]
    exact ⟨by omega, hr⟩
  · unfold Fs.InCopies
    rw [m6, m4]
    omega

/-- The root directory of volumes with 12 and 16 bits lies between the tables and the data. -/
theorem mounted_root {fs : Fs} {rt : Root} {D : Nat → Sector} {b : Nat} (hm : Mounted fs rt D b) (hs : (params (D b)).Sound) (hty : fs.ty ≠ .fat32) :
    Area fs rt 0 [] (fun i => rt.dirbase + i) (rt.nRoot / 16) := by
  have h1 := hs.whole
  have h2 : (params (D b)).rootEntries ≠ 0 := fun h => hty (hm.ty.trans (hs.root.2 h))
  have h3 := hm.dirbase
  rw [if_neg hty] at h3
  refine .static hty (by rw [hm.nRoot]; omega) (by rw [hm.nRoot]; omega) (by omega) ?_
  rw [h3, hm.nRoot, hm.database, hm.fatbase, hm.nFats, hm.fsize]
  show _ ≤ b + ((params (D b)).reserved + (params (D b)).tables * (params (D b)).tableSize + (params (D b)).rootEntries * 32 / 512)
  generalize (params (D b)).tables * (params (D b)).tableSize = N at *
  omega

/-- After a restart, if the boot sector and the first sectors of the partitions are as they were, the same volume is mounted, and what was on the disk is there again: this is what
`Remounted` in the properties of `f_sync` asks for. -/
theorem mount_again {env : Env} (hq : Quiet env) {a fs : Fs} {rt : Root} {D : Nat → Sector} {b : Nat} (hb : Begins D b) (hs : (params (D b)).Sound) (hf : (params (D b)).Fits b)
    (hm : Mounted a rt D b) (hsh : Shape a fs) (hinfo : fs.ty = .fat32 → b + 1 < fs.fatbase) (f0 : Fs) (h0 : f0.disk 0 = D 0) (h1 : f0.disk b = D b)
    (h2 : ∀ i s, i < 4 → Partition (D 0) i s → f0.disk s = D s) :
    ∃ f, f0.findVolume env = .ok f rt ∧ Remounted fs f0.disk f := by
  obtain ⟨z1, z2, z3, z4, z5, z6, z7⟩ := hsh
  have hb' : Begins f0.disk b := by
    cases hb with
    | whole h => exact .whole (by rw [h0]; exact h)
    | @partition i _ p1 p2 p3 p4 p5 p6 =>
      refine .partition (by rw [h0]; exact p1) (by rw [h0]; exact p2) p3 (by rw [h0]; exact p4) (by rw [h1]; exact p5) ?_
      rw [h0]
      intro j s' hj hp
      rw [h2 j s' (by omega) hp]
      exact p6 j s' hj hp
  have key := mount_right_partial hq f0 (fun b' hb2 => by rw [Spec.begins_one hb2 hb', h1]; exact hf)
  generalize hr : f0.findVolume env = r at *
  cases r with
  | diskErr => exact key.elim
  | noFilesystem => exact absurd (by rw [h1]; exact hs) (key b hb')
  | ok f rt' =>
    obtain ⟨b', hb2, _, hm'⟩ := key
    have e := Spec.begins_one hb2 hb'
    subst e
    obtain ⟨m1, m2, m3, m4, m5, m6, m7, m8, m9, m10, m11, m12, m13, _, _⟩ := hm'
    rw [h1] at m1 m2 m3 m4 m5 m6 m7 m8 m9
    have t1 := m1.trans hm.ty.symm
    have t3 := m3.trans hm.nFats.symm
    have t4 := m4.trans hm.fsize.symm
    have t6 := m6.trans hm.fatbase.symm
    have hrt : rt' = rt := by
      have r1 : rt'.nRoot = rt.nRoot := m8.trans hm.nRoot.symm
      have r2 : rt'.dirbase = rt.dirbase := by rw [m9, hm.dirbase, t1, t3, t4, t6]
      cases rt
      cases rt'
      cases r1
      cases r2
      rfl
    refine ⟨f, by rw [hrt], ⟨?_, ?_, ?_, ?_, ?_, ?_, ?_, m10, m11, m12, ?_⟩⟩
    · rw [t1, z1]
    · rw [m2, z2, hm.csize]
    · rw [t3, z3]
    · rw [m5, z4, hm.nFatent]
    · rw [t4, z5]
    · rw [t6, z6]
    · rw [m7, z7, hm.database]
    · rcases m13 with h | ⟨h, _, h'⟩
      · have := hs.reserved
        omega
      · have := hinfo (by rw [z1, ← t1]; exact h)
        rw [z6, ← t6] at this
        omega

/-! ## Examples -/

/-- A sector with these bytes, and 0 elsewhere -/
def bytesAt (l : List (Nat × BitVec 8)) : Sector := fun i => (l.lookup i).getD 0

/-- A boot sector with sectors of 512 bytes, 1 sector in a cluster and 1 reserved sector, and these other bytes -/
def bootWith (l : List (Nat × BitVec 8)) : Sector := bytesAt (l ++ [(510, 0x55), (511, 0xAA), (54, 0x46), (55, 0x41), (56, 0x54), (12, 2), (13, 1), (14, 1)])

/-- A floppy disk of 2880 sectors: 2 tables of 9 sectors, 224 entries in the root directory -/
def floppy : Sector := bootWith [(16, 2), (17, 224), (19, 0x40), (20, 0x0B), (22, 9)]

def diskOf (l : List (Nat × Sector)) : Fs := { vol with disk := fun s => (l.lookup s).getD (fun _ => 0#8) }

/-- What is mounted: the type; sectors in a cluster, tables, sectors of a table, the first sector of the tables, of the data and of the root directory, the number of entries -/
def shown (m : Mount) : Option (Ty × List Nat) :=
  match m with
  | .ok fs rt => some (fs.ty, [fs.csize, fs.nFats, fs.fsize, fs.fatbase, fs.database, rt.dirbase, fs.nFatent])
  | _ => none

example : shown ((diskOf [(0, floppy)]).findVolume calm) = some (.fat12, [1, 2, 9, 1, 33, 19, 2849]) := by decide +kernel

/-- The second entry of the partition table says that the partition begins in the given sector, given by its bytes. -/
def mbr (a b c d : BitVec 8) : Sector := bytesAt [(510, 0x55), (511, 0xAA), (466, 1), (470, a), (471, b), (472, c), (473, d)]

example : shown ((diskOf [(0, mbr 63 0 0 0), (63, floppy)]).findVolume calm) = some (.fat12, [1, 2, 9, 64, 96, 82, 2849]) := by decide +kernel

theorem floppy_begins : Begins (diskOf [(0, floppy)]).disk 0 := .whole ⟨by unfold Signed; decide +kernel, .inl (by unfold Spec.Fat; decide +kernel)⟩

theorem floppy_fits : (params floppy).Fits 0 := ⟨by decide +kernel, by decide +kernel, by decide +kernel⟩

theorem floppy_sound : (params floppy).Sound :=
  ⟨by decide +kernel, ⟨0, by decide +kernel⟩, by decide +kernel, by decide +kernel, by decide +kernel, by decide +kernel, by decide +kernel, by decide +kernel, by decide +kernel⟩

/-- The hypotheses of the theorems above hold for the floppy disk. -/
example : ∃ fs rt, (diskOf [(0, floppy)]).findVolume calm = .ok fs rt ∧ fs.Ok ∧ Area fs rt 0 [] (fun i => rt.dirbase + i) (rt.nRoot / 16) ∧
    ∃ f, ({ fs with win := fun _ => 7#8, wflag := true }).findVolume calm = .ok f rt ∧ Remounted fs fs.disk f := by
  have h := mount_right_partial calm_quiet (diskOf [(0, floppy)]) (fun b hb => by rw [Spec.begins_one hb floppy_begins]; exact floppy_fits)
  generalize hr : (diskOf [(0, floppy)]).findVolume calm = r at *
  cases r with
  | diskErr => exact h.elim
  | noFilesystem => exact absurd floppy_sound (h 0 floppy_begins)
  | ok fs rt =>
    obtain ⟨b, hb, hs, hm⟩ := h
    have e := Spec.begins_one hb floppy_begins
    subst e
    have hty : fs.ty ≠ .fat32 := by
      rw [hm.ty]
      show (params floppy).ty ≠ _
      decide +kernel
    refine ⟨fs, rt, rfl, mounted_ok hm hs floppy_fits, mounted_root hm hs hty, ?_⟩
    exact mount_again calm_quiet hb hs floppy_fits hm ⟨rfl, rfl, rfl, rfl, rfl, rfl, rfl⟩ (fun h => absurd h hty) _ (by rw [hm.disk]) (by rw [hm.disk]) (fun _ _ _ _ => by rw [hm.disk])

/-- Two tables of 2147483648 sectors each are taken to need none: the volume of 70000 sectors is mounted, and its first cluster is the first sector of the tables. -/
theorem tables_vanish : ∃ fs rt, (diskOf [(0, bootWith [(16, 2), (39, 0x80), (32, 0x70), (33, 0x11), (34, 1)])]).findVolume calm = .ok fs rt ∧ fs.clust2sect 2 = fs.fatbase ∧ ¬ fs.Ok := by
  refine ⟨_, _, rfl, by decide +kernel, fun h => ?_⟩
  exact absurd h.layout.area (by decide +kernel)

/-- A volume of 1073741922 clusters is mounted with a table of 128 entries: entry 200 is read from the sector behind it, the first one of the data. -/
theorem short_table : ∃ fs rt, (diskOf [(0, bootWith [(16, 1), (36, 1), (32, 100), (35, 0x40)])]).findVolume calm = .ok fs rt ∧ fs.fsize = 1 ∧ fs.nFatent = 1073741924 ∧
    (fs.getFat calm 200).1.winsect = fs.database ∧ ¬ fs.Ok := by
  refine ⟨_, _, rfl, by decide +kernel, by decide +kernel, by decide +kernel, fun h => ?_⟩
  exact absurd h.layout.table (by decide +kernel)

/-- A partition of 2880 sectors that begins 256 sectors before the last number is mounted: its cluster 226 is sector 1 of the disk, far in front of it. -/
theorem past_the_end : ∃ fs rt, (diskOf [(0, mbr 0 0xFF 0xFF 0xFF), (0xFFFFFF00, floppy)]).findVolume calm = .ok fs rt ∧ fs.clust2sect 226 = 1 ∧ ¬ fs.Ok := by
  refine ⟨_, _, rfl, by decide +kernel, fun h => ?_⟩
  exact absurd h.layout.data (by decide +kernel)

/-- A volume with more clusters than entries of 28 bits can name is mounted. -/
theorem too_many_clusters : ∃ fs rt, (diskOf [(0, bootWith [(13, 8), (16, 1), (38, 0x40), (32, 255), (33, 255), (34, 255), (35, 255)])]).findVolume calm = .ok fs rt ∧ fs.ty = .fat32 ∧
    Spec.range .fat32 < fs.nFatent ∧ ¬ fs.Ok := by
  refine ⟨_, _, rfl, by decide +kernel, by decide +kernel, fun h => ?_⟩
  exact absurd h.layout.ents.2 (by decide +kernel)

/-- A volume of exactly 4085 clusters has entries of 16 bits by Microsoft's specification; it is mounted with entries of 12 bits. -/
theorem edge_4085 : (params (bootWith [(16, 2), (17, 224), (19, 0x1C), (20, 0x10), (22, 12)])).clusters = 4085 ∧
    (params (bootWith [(16, 2), (17, 224), (19, 0x1C), (20, 0x10), (22, 12)])).edge = .fat16 ∧
    shown ((diskOf [(0, bootWith [(16, 2), (17, 224), (19, 0x1C), (20, 0x10), (22, 12)])]).findVolume calm) = some (.fat12, [1, 2, 12, 1, 39, 25, 4087]) := by
  decide +kernel

/-- The types agree for all other numbers of clusters. -/
theorem edges (p : Params) (h1 : p.clusters ≠ 4085) (h2 : p.clusters ≠ 65525) : p.ty = p.edge := by
  unfold Params.ty Params.edge
  by_cases a : p.clusters ≤ 4085
  · rw [if_pos a, if_pos (by omega)]
  · have a' : ¬ p.clusters < 4085 := by omega
    rw [if_neg a, if_neg a']
    by_cases b : p.clusters ≤ 65525
    · rw [if_pos b, if_pos (by omega)]
    · rw [if_neg b, if_neg (by omega)]

/-- The first cluster of the root directory is not looked at: it may be 0, or behind the last one. -/
theorem root_unchecked : ∃ fs rt, (diskOf [(0, bootWith [(16, 1), (37, 0x04), (32, 0x70), (33, 0x17), (34, 1), (47, 0xFF)])]).findVolume calm = .ok fs rt ∧ fs.nFatent < rt.dirbase :=
  ⟨_, _, rfl, by decide +kernel⟩

/-- A disk whose operation 1 fails and leaves the boot sector of a floppy disk in the buffer -/
def lying : Env := { fail := fun t => t == 1, junk := fun _ => floppy }

/-- A partition in the last sector that has a number is never read. If reading the one before failed, what that left in the window is mounted: no sector of this disk describes a volume. -/
theorem junk_mounted : shown ((diskOf [(0, bytesAt [(510, 0x55), (511, 0xAA), (450, 1), (454, 5), (466, 1), (470, 0xFF), (471, 0xFF), (472, 0xFF), (473, 0xFF)])]).findVolume lying) =
    some (.fat12, [1, 2, 9, 0, 32, 18, 2849]) := by decide +kernel

end Verif.Fat
