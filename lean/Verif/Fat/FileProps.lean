import Verif.Fat.FileSpec
import Verif.Fat.FileRead

/-!
# FatFs: reading and writing of an open file — properties
-/

namespace Verif.Fat

open Spec (Ty Chain Files order freeCount overwrite portion)

/-- The bytes of an open file -/
def content (fs : Fs) (fp : Fil) (L : List Nat) : List (BitVec 8) := (List.range fp.fsize).map (view fs fp L)

/-- The first `n` bytes of a buffer of the caller -/
def firstBytes (src : Nat → BitVec 8) (n : Nat) : List (BitVec 8) := (List.range n).map src

/-- An open file with the clusters `L` on a volume whose other files have the chains `O` -/
structure Opened (fs : Fs) (fp : Fil) (L : List Nat) (O : List (List Nat)) : Prop where
  core : Core fs fp L O
  inside : fp.fptr ≤ fp.fsize
  small : fp.fsize < 4294967296
  err : fp.err = .ok

/-- The volume keeps its shape, and the sectors which are neither in a table nor in the file keep their bytes. -/
structure Undisturbed (fs fs' : Fs) (L : List Nat) : Prop where
  ty : fs'.ty = fs.ty
  csize : fs'.csize = fs.csize
  nFats : fs'.nFats = fs.nFats
  nFatent : fs'.nFatent = fs.nFatent
  fsize : fs'.fsize = fs.fsize
  fatbase : fs'.fatbase = fs.fatbase
  database : fs'.database = fs.database
  outside : ∀ s, ¬ fs.InCopies s → ¬ fs.InTable s → ¬ fs.Mine L s → fs'.look s = fs.look s

theorem Mv.undisturbed {fs fs' : Fs} {L : List Nat} (h : Mv fs fs' (fs.Mine L)) : Undisturbed fs fs' L := ⟨h.ty, h.csize, h.nFats, h.nFatent, h.fsize, h.fatbase, h.database, h.outside⟩

/-- The file is marked as changed, or its size and the marks are as before; the buffer has at most been written back. -/
def Marked (fp fp' : Fil) : Prop := fp'.written = true ∨ (fp'.written = fp.written ∧ fp'.fsize = fp.fsize ∧ (fp'.dirty = true → fp.dirty = true))

theorem Marked.refl (fp : Fil) : Marked fp fp := Or.inr ⟨rfl, rfl, id⟩

theorem Marked.trans {a b c : Fil} (h : Marked a b) (k : Marked b c) : Marked a c := by
  rcases k with k | ⟨k1, k2, k3⟩
  · exact Or.inl k
  · rcases h with h | ⟨h1, h2, h3⟩
    · exact Or.inl (k1.trans h)
    · exact Or.inr ⟨k1.trans h1, k2.trans h2, h3 ∘ k3⟩

theorem flush_marked (env : Env) (fs : Fs) (fp : Fil) : Marked fp (fp.flush env fs).2.1 := by
  unfold Fil.flush
  split
  · dsimp only
    split
    · exact Or.inr ⟨rfl, rfl, fun x => Bool.noConfusion x⟩
    · exact .refl _
  · exact .refl _

/-- What a turn of `f_read` leaves of the file object -/
def RTurn.Marked (fp : Fil) : RTurn → Prop
  | .more _ fp' _ _ => Verif.Fat.Marked fp fp'
  | .abort _ fp' _ => Verif.Fat.Marked fp fp'

theorem RTurn.marked_more {fp g : Fil} (h : Verif.Fat.Marked fp g) (fs : Fs) (n : Nat) (b : Nat → BitVec 8) : (RTurn.more fs g n b).Marked fp := h
theorem RTurn.marked_abort {fp g : Fil} (h : Verif.Fat.Marked fp g) (fs : Fs) (r : Fr) : (RTurn.abort fs g r).Marked fp := h
theorem RTurn.marked_from {fp g : Fil} (h : Verif.Fat.Marked fp g) {t : RTurn} (k : t.Marked g) : t.Marked fp := by
  cases t with
  | more _ _ _ _ => exact h.trans k
  | abort _ _ _ => exact h.trans k

theorem readSector_marked (env : Env) (fs : Fs) (fp : Fil) (btr cs : Nat) : (readSector env fs fp btr cs).Marked fp := by
  unfold readSector readBytes
  dsimp only
  generalize fs.clust2sect fp.clust = s0
  generalize u32 (s0 + cs) = s1
  generalize sub32 fp.dsect s1 = d
  have hf := flush_marked env fs fp
  split
  · exact RTurn.marked_abort (.refl _) _ _
  · split
    · split
      · exact RTurn.marked_more (.refl _) _ _ _
      · exact RTurn.marked_abort (.refl _) _ _
    · split
      · split
        · exact RTurn.marked_abort hf _ _
        · split
          · refine RTurn.marked_more ?_ _ _ _
            exact hf.trans (Or.inr ⟨rfl, rfl, id⟩)
          · refine RTurn.marked_abort ?_ _ _
            exact hf.trans (Or.inr ⟨rfl, rfl, id⟩)
      · refine RTurn.marked_more ?_ _ _ _
        exact Or.inr ⟨rfl, rfl, id⟩

attribute [local irreducible] RTurn.Marked readSector in
theorem readTurn_marked (env : Env) (fs : Fs) (fp : Fil) (btr : Nat) : (readTurn env fs fp btr).Marked fp := by
  unfold readTurn readBytes
  by_cases h1 : fp.fptr % 512 = 0
  · rw [if_pos h1]
    by_cases h2 : csect fs fp = 0
    · rw [if_pos h2]
      dsimp only
      generalize (if fp.fptr = 0 then (fs, fp.sclust) else fs.getFat env fp.clust) = r
      by_cases h3 : r.2 < 2
      · rw [if_pos h3]
        exact RTurn.marked_abort (.refl _) _ _
      · rw [if_neg h3]
        by_cases h4 : r.2 = 0xFFFFFFFF
        · rw [if_pos h4]
          exact RTurn.marked_abort (.refl _) _ _
        · rw [if_neg h4]
          refine RTurn.marked_from ?_ (readSector_marked env r.1 { fp with clust := r.2 } btr 0)
          exact Or.inr ⟨rfl, rfl, id⟩
    · rw [if_neg h2]
      exact readSector_marked env fs fp btr (csect fs fp)
  · rw [if_neg h1]
    exact RTurn.marked_more (.refl _) _ _ _

theorem moved_marked (fp : Fil) (n : Nat) : Marked fp { fp with fptr := n } := Or.inr ⟨rfl, rfl, id⟩

theorem readLoop_marked (env : Env) (k : Nat) : ∀ (fs : Fs) (fp : Fil) (out : Nat → BitVec 8) (btr br : Nat) {r}, readLoop env k fs fp out btr br = some r → Marked fp r.2.1 := by
  induction k with
  | zero =>
    intro fs fp out btr br r h
    unfold readLoop at h
    split at h
    · cases h; exact .refl _
    · exact absurd h (by simp)
  | succ k ih =>
    intro fs fp out btr br r h
    unfold readLoop at h
    split at h
    · cases h; exact .refl _
    · have ht := readTurn_marked env fs fp btr
      dsimp only at h
      generalize readTurn env fs fp btr = t at h ht
      cases t with
      | more f g n b =>
        have hi := ih _ _ _ _ _ h
        generalize u32 (g.fptr + n) = m at hi
        exact ht.trans ((moved_marked g m).trans hi)
      | abort f g res =>
        cases h
        exact ht.trans (Or.inr ⟨rfl, rfl, id⟩)

theorem content_length (fs : Fs) (fp : Fil) (L : List Nat) : (content fs fp L).length = fp.fsize := by
  unfold content
  rw [List.length_map, List.length_range]

theorem map_range_get {α : Type} (f : Nat → α) (n o : Nat) : ((List.range n).map f)[o]? = if o < n then some (f o) else none := by
  rw [List.getElem?_map]
  by_cases h : o < n
  · rw [List.getElem?_range h, if_pos h]; rfl
  · rw [List.getElem?_eq_none (by rw [List.length_range]; omega), if_neg h]; rfl

theorem content_get (fs : Fs) (fp : Fil) (L : List Nat) (o : Nat) : (content fs fp L)[o]? = if o < fp.fsize then some (view fs fp L o) else none := map_range_get _ _ _

theorem firstBytes_get (src : Nat → BitVec 8) (n o : Nat) : (firstBytes src n)[o]? = if o < n then some (src o) else none := map_range_get _ _ _

theorem content_eq {fs fs' : Fs} {fp fp' : Fil} {L L' : List Nat} (h : fp'.fsize = fp.fsize) (e : ∀ o, o < fp.fsize → view fs' fp' L' o = view fs fp L o) :
    content fs' fp' L' = content fs fp L := by
  unfold content
  rw [h]
  exact List.map_congr_left fun o ho => e o (List.mem_range.mp ho)

/-- The bytes after a write -/
theorem content_overwrite {fs fs' : Fs} {fp fp' : Fil} {L L' : List Nat} {src : Nat → BitVec 8} {n : Nat} (hin : fp.fptr ≤ fp.fsize) (h : fp'.fsize = max fp.fsize (fp.fptr + n))
    (e : ∀ o, o < max fp.fsize (fp.fptr + n) → view fs' fp' L' o = if fp.fptr ≤ o ∧ o < fp.fptr + n then src (o - fp.fptr) else view fs fp L o) :
    content fs' fp' L' = overwrite (content fs fp L) fp.fptr (firstBytes src n) := by
  have hl : (firstBytes src n).length = n := by unfold firstBytes; rw [List.length_map, List.length_range]
  have ht : ((content fs fp L).take fp.fptr).length = fp.fptr := by rw [List.length_take, content_length]; omega
  apply List.ext_getElem?
  intro o
  unfold overwrite
  rw [content_get, h, List.getElem?_append, List.getElem?_append, List.length_append, ht, hl, List.getElem?_take, List.getElem?_drop, content_get, content_get, firstBytes_get]
  by_cases a : o < fp.fptr
  · rw [if_pos (by omega), if_pos (by omega), if_pos a, if_pos a, if_pos (by omega), e o (by omega), if_neg (by omega)]
  · by_cases b : o < fp.fptr + n
    · rw [if_pos (by omega), if_pos b, if_neg a, if_pos (by omega), e o (by omega), if_pos (by omega)]
    · rw [if_neg b, show fp.fptr + n + (o - (fp.fptr + n)) = o by omega]
      by_cases c : o < fp.fsize
      · rw [if_pos (by omega), if_pos c, e o (by omega), if_neg (by omega)]
      · rw [if_neg (by omega), if_neg c]

/-- `f_write` puts the bytes at the position and leaves the rest of the file and of the disk; what was written is said; it falls short only where no cluster of the volume is free and
the file fills its last one; a write that would pass 4 GiB writes nothing. -/
theorem f_write_overwrites_partial {env : Env} (hq : Quiet env) (fs : Fs) (fp : Fil) (L : List Nat) (O : List (List Nat)) (h : Opened fs fp L O) (hw : fp.wr = true) (src : Nat → BitVec 8) (btw : Nat)
    (hb : btw < 4294967296) :
    ∃ M fs' fp' n, fWrite env fs fp src btw = some (fs', fp', .ok, n) ∧ Opened fs' fp' (L ++ M) O ∧ (fs.Copies → fs'.Copies) ∧ Undisturbed fs fs' (L ++ M) ∧
      content fs' fp' (L ++ M) = overwrite (content fs fp L) fp.fptr (firstBytes src n) ∧ fp'.fptr = fp.fptr + n ∧ n ≤ btw ∧
      (fp.fptr + btw < 4294967296 → n < btw → fp'.fptr = (L ++ M).length * (fs.csize * 512) ∧ ∀ c, 2 ≤ c → c < fs.nFatent → c ∈ (L ++ M) ++ O.flatten) ∧
      (4294967296 ≤ fp.fptr + btw → n = 0) ∧ fp'.rd = fp.rd ∧ fp'.wr = fp.wr ∧ fp'.written = true := by
  have hsz := h.inside
  have hs := h.small
  unfold fWrite
  rw [if_neg (fun x => x h.err), if_neg (by rw [hw]; decide)]
  have hcap : ∃ b, (if u32 (fp.fptr + btw) < fp.fptr then 0 else btw) = b ∧ b ≤ btw ∧ fp.fptr + b < 4294967296 ∧ (fp.fptr + btw < 4294967296 → b = btw) ∧ (4294967296 ≤ fp.fptr + btw → b = 0) := by
    by_cases k : fp.fptr + btw < 4294967296
    · rw [u32_of k, if_neg (by omega)]
      exact ⟨_, rfl, by omega, k, fun _ => rfl, fun x => by omega⟩
    · have e : u32 (fp.fptr + btw) = fp.fptr + btw - 4294967296 := by
        unfold u32
        rw [Nat.mod_eq_sub_mod (by omega), Nat.mod_eq_of_lt (by omega)]
      rw [e, if_pos (by omega)]
      exact ⟨_, rfl, by omega, by omega, fun x => by omega, fun _ => rfl⟩
  obtain ⟨b, e, b1, b2, b3, b4⟩ := hcap
  rw [e]
  obtain ⟨M, fs', fp', n, i1, i2, i3, i4, i5, i6, i7, i8, i9, i10, i11, i12⟩ := loop_spec hq btw h.core src b 0 b1 b2
  rw [Nat.zero_add] at i1
  refine ⟨M, fs', fp', n, i1, ⟨i3, by omega, by omega, by rw [i9]; exact h.err⟩, i4.copies, i4.undisturbed, content_overwrite hsz i6 i11, i5, by omega, fun k1 k2 => ?_, fun k => ?_, i7, i8, i10⟩
  · obtain ⟨j1, j2⟩ := i12 (by have := b3 k1; omega)
    constructor
    · rw [i5, j1, Nat.mul_left_comm, Nat.mul_comm 512]
    · intro c c1 c2
      have := j2 c c1 c2
      rwa [List.flatten_append, own_flatten] at this
  · have := b4 k
    omega

/-- `f_read` gives the next bytes, fewer at the end of the file, and changes neither the file nor, beside tables and the file, the disk; the rest of the caller's buffer is left. -/
theorem f_read_portion {env : Env} (hq : Quiet env) (fs : Fs) (fp : Fil) (L : List Nat) (O : List (List Nat)) (h : Opened fs fp L O) (hr : fp.rd = true) (out : Nat → BitVec 8) (btr : Nat) :
    ∃ fs' fp' n out', fRead env fs fp out btr = some (fs', fp', .ok, n, out') ∧ Opened fs' fp' L O ∧ (fs.Copies → fs'.Copies) ∧ Undisturbed fs fs' L ∧
      content fs' fp' L = content fs fp L ∧ fp'.fptr = fp.fptr + n ∧ n = min btr (fp.fsize - fp.fptr) ∧
      firstBytes out' n = portion (content fs fp L) fp.fptr btr ∧ (∀ i, n ≤ i → out' i = out i) ∧ fp'.rd = fp.rd ∧ fp'.wr = fp.wr ∧ Marked fp fp' := by
  have hin := h.inside
  have hs := h.small
  unfold fRead
  rw [if_neg (fun x => x h.err), if_neg (by rw [hr]; decide)]
  have hsub : sub32 fp.fsize fp.fptr = fp.fsize - fp.fptr := (sub32_lt (c := 0) hs (by omega)).2 hin
  rw [hsub]
  obtain ⟨b, e, b1, b2⟩ : ∃ b, (if btr > fp.fsize - fp.fptr then fp.fsize - fp.fptr else btr) = b ∧ b ≤ btr ∧ b = min btr (fp.fsize - fp.fptr) := by
    refine ⟨_, rfl, ?_, ?_⟩
    · split <;> omega
    · split <;> omega
  rw [e]
  obtain ⟨fs', fp', i1, i2, i3, i4, i5, i6, i7, i8, i9, i10⟩ := readLoop_spec hq btr h.core out b 0 b1 (by omega) hs
  rw [Nat.zero_add] at i1
  refine ⟨fs', fp', b, _, i1, ⟨i2, by omega, by omega, by rw [i8]; exact h.err⟩, i3.copies, i3.undisturbed, content_eq i5 i10, i4, b2, ?_, fun i hi => ?_, i6, i7, readLoop_marked env _ _ _ _ _ _ i1⟩
  · apply List.ext_getElem?
    intro o
    unfold portion
    rw [firstBytes_get, List.getElem?_take, List.getElem?_drop, content_get]
    by_cases a : o < b
    · rw [if_pos a, if_pos (by omega), if_pos (by omega)]
      unfold paste
      rw [if_pos (by omega), Nat.sub_zero]
    · rw [if_neg a]
      by_cases c : o < btr
      · rw [if_pos c, if_neg (by omega)]
      · rw [if_neg c]
  · unfold paste
    rw [if_neg (by omega)]

/-- A file with an error, or without the mode, is left as it is. -/
theorem refused_ops (env : Env) (fs : Fs) (fp : Fil) (src out : Nat → BitVec 8) (n : Nat) :
    (fp.err ≠ .ok → fWrite env fs fp src n = some (fs, fp, fp.err, 0) ∧ fRead env fs fp out n = some (fs, fp, fp.err, 0, out)) ∧
    (fp.err = .ok → fp.wr = false → fWrite env fs fp src n = some (fs, fp, .denied, 0)) ∧
    (fp.err = .ok → fp.rd = false → fRead env fs fp out n = some (fs, fp, .denied, 0, out)) := by
  refine ⟨fun h => ⟨if_pos h, if_pos h⟩, fun h1 h2 => ?_, fun h1 h2 => ?_⟩
  · unfold fWrite
    rw [if_neg (fun x => x h1), if_pos h2]
  · unfold fRead
    rw [if_neg (fun x => x h1), if_pos h2]

end Verif.Fat
