import Verif.Fat.FileProps
import Verif.Fat.FileSeek
import Verif.Fat.FreeProps

/-!
# FatFs: position and end of an open file; sequences of operations — properties
-/

namespace Verif.Fat

open Spec (Ty Chain Files order freeCount overwrite portion FileOp Answer File Does Run)

theorem grow_marked (fp : Fil) : Marked fp fp.grow := by
  unfold Fil.grow
  split
  · exact Or.inl rfl
  · exact .refl _

theorem seekEnd_marked (env : Env) (fs : Fs) (fp : Fil) (n : Nat) : Marked fp (seekEnd env fs fp n).2.1 := by
  unfold seekEnd
  have hf := flush_marked env fs fp
  split
  · dsimp only
    split
    · exact hf.trans (Or.inr ⟨rfl, rfl, id⟩)
    · split
      · exact hf.trans (Or.inr ⟨rfl, rfl, id⟩)
      · dsimp only
        refine hf.trans (Marked.trans ?_ (grow_marked _))
        exact Or.inr ⟨rfl, rfl, id⟩
  · exact grow_marked fp

theorem clust_marked (fp : Fil) (c n : Nat) : Marked fp { fp with clust := c, fptr := n } := Or.inr ⟨rfl, rfl, id⟩

theorem seekLoop_marked (env : Env) (k : Nat) : ∀ (fs : Fs) (fp : Fil) (clst ofs : Nat) {r}, seekLoop env k fs fp clst ofs = some r → Marked fp r.2.1 := by
  induction k with
  | zero =>
    intro fs fp clst ofs r h
    unfold seekLoop at h
    split at h
    · exact absurd h (by simp)
    · cases h; exact .refl _
  | succ k ih =>
    intro fs fp clst ofs r h
    unfold seekLoop at h
    split at h
    · dsimp only at h
      generalize (if fp.wr = true then fs.createChain env clst else some (fs.getFat env clst)) = q at h
      cases q with
      | none => exact absurd h (by simp)
      | some q =>
        obtain ⟨f, c⟩ := q
        dsimp only at h
        by_cases h1 : fp.wr = true ∧ c = 0
        · rw [if_pos h1] at h; cases h; exact .refl _
        · rw [if_neg h1] at h
          by_cases h2 : c = 0xFFFFFFFF
          · rw [if_pos h2] at h; cases h; exact .refl _
          · rw [if_neg h2] at h
            by_cases h3 : c ≤ 1 ∨ c ≥ f.nFatent
            · rw [if_pos h3] at h; cases h; exact .refl _
            · rw [if_neg h3] at h
              generalize u32 (fp.fptr + f.csize * 512) = m at h
              exact (clust_marked fp c m).trans (ih _ _ _ _ h)
    · cases h; exact .refl _

theorem seekFrom_marked (env : Env) (fs : Fs) (fp : Fil) (clst ofs : Nat) {r} (h : seekFrom env fs fp clst ofs = some r) : Marked fp r.2.1 := by
  unfold seekFrom at h
  by_cases h1 : clst = 0
  · rw [if_pos h1] at h
    cases h
    exact seekEnd_marked env fs fp 0
  · rw [if_neg h1] at h
    cases e : seekLoop env ofs fs fp clst ofs with
    | none => rw [e] at h; exact absurd h (by simp)
    | some q =>
      have hm := seekLoop_marked env _ _ _ _ _ e
      rw [e] at h
      obtain ⟨f, g, c, o, res⟩ := q
      dsimp only at h hm
      generalize u32 (g.fptr + o) = m at h
      have hm' := hm.trans (moved_marked g m)
      by_cases h2 : res ≠ .ok
      · rw [if_pos h2] at h
        cases h
        exact hm.trans (Or.inr ⟨rfl, rfl, id⟩)
      · rw [if_neg h2] at h
        by_cases h3 : o % 512 ≠ 0
        · rw [if_pos h3] at h
          by_cases h4 : f.clust2sect c = 0
          · rw [if_pos h4] at h
            cases h
            exact hm'.trans (Or.inr ⟨rfl, rfl, id⟩)
          · rw [if_neg h4] at h
            generalize u32 (f.clust2sect c + o / 512) = n at h
            cases h
            exact hm'.trans (seekEnd_marked env f _ n)
        · rw [if_neg h3] at h
          cases h
          exact hm'.trans (seekEnd_marked env f _ 0)

theorem lseek_marked (env : Env) (fs : Fs) (fp : Fil) (ofs : Nat) {r} (h : fLseek env fs fp ofs = some r) : Marked fp r.2.1 := by
  unfold fLseek at h
  by_cases h1 : fp.err ≠ .ok
  · rw [if_pos h1] at h; cases h; exact .refl _
  · rw [if_neg h1] at h
    dsimp only at h
    generalize (if ofs > fp.fsize ∧ fp.wr = false then fp.fsize else ofs) = g at h
    by_cases h2 : g = 0
    · rw [if_pos h2] at h
      cases h
      exact (moved_marked fp 0).trans (seekEnd_marked env fs _ 0)
    · rw [if_neg h2] at h
      generalize (fp.fptr - 1) &&& (0xFFFFFFFF - (fs.csize * 512 - 1)) = p at h
      by_cases h3 : 0 < fp.fptr ∧ (g - 1) / (fs.csize * 512) ≥ (fp.fptr - 1) / (fs.csize * 512)
      · rw [if_pos h3] at h
        exact (moved_marked fp p).trans (seekFrom_marked env fs _ _ _ h)
      · rw [if_neg h3] at h
        by_cases h4 : fp.sclust = 0
        · rw [if_pos h4] at h
          cases e : fs.createChain env 0 with
          | none => rw [e] at h; exact absurd h (by simp)
          | some q =>
            rw [e] at h
            obtain ⟨f, c⟩ := q
            dsimp only at h
            by_cases h5 : c = 1
            · rw [if_pos h5] at h; cases h; exact Or.inr ⟨rfl, rfl, id⟩
            · rw [if_neg h5] at h
              by_cases h6 : c = 0xFFFFFFFF
              · rw [if_pos h6] at h; cases h; exact Or.inr ⟨rfl, rfl, id⟩
              · rw [if_neg h6] at h
                exact Marked.trans (b := { fp with fptr := 0, sclust := c, clust := c }) (Or.inr ⟨rfl, rfl, id⟩) (seekFrom_marked env f _ _ _ h)
        · rw [if_neg h4] at h
          exact Marked.trans (b := { fp with fptr := 0, clust := fp.sclust }) (Or.inr ⟨rfl, rfl, id⟩) (seekFrom_marked env fs _ _ _ h)

/-- `f_lseek` moves to the position; in a file that is only read not over its end. Inside the file nothing changes; over the end the file grows up to there, with its bytes as a prefix, and
the position is less than the wanted one only if all clusters of the volume are in use. -/
theorem f_lseek_moves {env : Env} (hq : Quiet env) (fs : Fs) (fp : Fil) (L : List Nat) (O : List (List Nat)) (h : Opened fs fp L O) (ofs : Nat) (ho : ofs < 4294967296) :
    ∃ M fs' fp', fLseek env fs fp ofs = some (fs', fp', .ok) ∧ Opened fs' fp' (L ++ M) O ∧ (fs.Copies → fs'.Copies) ∧ Undisturbed fs fs' (L ++ M) ∧ fp'.rd = fp.rd ∧ fp'.wr = fp.wr ∧ Marked fp fp' ∧
      (ofs ≤ fp.fsize → fp'.fptr = ofs ∧ M = [] ∧ content fs' fp' (L ++ M) = content fs fp L) ∧
      (fp.fsize < ofs → fp.wr = false → fp'.fptr = fp.fsize ∧ M = [] ∧ content fs' fp' (L ++ M) = content fs fp L) ∧
      (fp.fsize < ofs → fp.wr = true → (∃ new, content fs' fp' (L ++ M) = content fs fp L ++ new ∧ (content fs fp L ++ new).length = max fp.fsize fp'.fptr) ∧
        (fp'.fptr = ofs ∨ fp'.fptr < ofs ∧ fp'.fptr = (L ++ M).length * (fs.csize * 512) ∧ ∀ c, 2 ≤ c → c < fs.nFatent → c ∈ (L ++ M) ++ O.flatten)) := by
  obtain ⟨M, fs', fp', e, s⟩ := lseek_spec hq h.core h.err ofs ho
  have hsz := h.core.size
  have hin := h.inside
  have hs := h.small
  have h1 := s.size
  obtain ⟨m1, m2, m3⟩ := s.modes
  have hp := s.core.p32
  have hnear : ∀ g, g ≤ fp.fsize → (if fp.wr = true then ofs else min ofs fp.fsize) = g → fp'.fptr = g ∧ M = [] ∧ content fs' fp' (L ++ M) = content fs fp L := by
    intro g hg eg
    obtain ⟨n1, n2⟩ := s.near (by omega)
    exact ⟨by omega, n1, content_eq (by omega) s.view⟩
  refine ⟨M, fs', fp', e, ⟨s.core, by omega, by omega, by rw [m3]; exact h.err⟩, s.mv.copies, s.mv.undisturbed, m1, m2, lseek_marked env fs fp ofs e, fun k => ?_, fun k1 k2 => ?_, fun k1 k2 => ⟨?_, ?_⟩⟩
  · exact hnear ofs k (by split <;> omega)
  · exact hnear fp.fsize (Nat.le_refl _) (by rw [if_neg (by rw [k2]; decide)]; omega)
  · refine ⟨(content fs' fp' (L ++ M)).drop fp.fsize, ?_, ?_⟩
    · have : content fs fp L = (content fs' fp' (L ++ M)).take fp.fsize := by
        apply List.ext_getElem?
        intro o
        rw [List.getElem?_take, content_get, content_get]
        by_cases a : o < fp.fsize
        · rw [if_pos a, if_pos a, if_pos (by omega), s.view o a]
        · rw [if_neg a, if_neg a]
      rw [this, List.take_append_drop]
    · rw [List.length_append, List.length_drop, content_length, content_length]
      omega
  · rcases s.far with z | z
    · left
      rw [z, if_pos k2]
    · obtain ⟨_, z1, z2, z3⟩ := z
      rw [if_pos k2] at z1
      refine Or.inr ⟨z1, ?_, fun c c1 c2 => ?_⟩
      · rw [z2, Nat.mul_left_comm, Nat.mul_comm 512]
      · have := z3 c c1 c2
        rwa [List.flatten_append, own_flatten] at this

/-- `f_truncate` ends the file at the position and keeps exactly the clusters that are needed up to there; the others are free. -/
theorem f_truncate_cuts {env : Env} (hq : Quiet env) (fs : Fs) (fp : Fil) (L : List Nat) (O : List (List Nat)) (h : Opened fs fp L O) (hw : fp.wr = true) :
    ∃ K fs' fp', fTruncate env fs fp = some (fs', fp', .ok) ∧ Opened fs' fp' K O ∧ (fs.Copies → fs'.Copies) ∧ Undisturbed fs fs' L ∧ fp'.rd = fp.rd ∧ fp'.wr = fp.wr ∧ Marked fp fp' ∧
      content fs' fp' K = (content fs fp L).take fp.fptr ∧ fp'.fptr = fp.fptr ∧
      (fp.fptr = fp.fsize → K = L) ∧
      (fp.fptr < fp.fsize → K = L.take ((fp.fptr + (fs.csize * 512 - 1)) / (fs.csize * 512)) ∧ ∀ c ∈ L, c ∉ K → fs'.entryAt c = 0) := by
  have hin := h.inside
  have hs := h.small
  by_cases k : fp.fptr < fp.fsize
  · obtain ⟨fs', fp', e1, e2, e3, e4, e5, ⟨e6, e7, e8⟩, e10, e9⟩ := trunc_spec hq h.core h.err hw k
    refine ⟨_, fs', fp', e1, ⟨e2, by omega, by omega, by rw [e8]; exact h.err⟩, e3.copies, e3.undisturbed, e6, e7, Or.inl e10, ?_, e4, fun x => by omega, fun _ => ⟨rfl, fun c hc hn => ?_⟩⟩
    · apply List.ext_getElem?
      intro o
      rw [List.getElem?_take, content_get, content_get, e5]
      by_cases a : o < fp.fptr
      · rw [if_pos a, if_pos a, if_pos (by omega), e9 o a]
      · rw [if_neg a, if_neg a]
    · obtain ⟨b1, b2, b3⟩ := (files_bounds h.core.files).2.1 c hc
      refine Classical.byContradiction fun hne => ?_
      have := e2.files.used c b1 (by rw [e3.nFatent]; exact b2) hne
      rw [List.flatten_append, own_flatten, List.mem_append] at this
      exact this.elim hn b3
  · refine ⟨L, fs, fp, ?_, h, id, ⟨rfl, rfl, rfl, rfl, rfl, rfl, rfl, fun _ _ _ _ => rfl⟩, rfl, rfl, .refl _, ?_, rfl, fun _ => rfl, fun x => absurd x k⟩
    · unfold fTruncate
      rw [if_neg (fun x => x h.err), if_neg (by rw [hw]; decide), if_neg k]
    · rw [List.take_of_length_le (by rw [content_length]; omega)]

/-- A file with an error, or without the mode, is left as it is. -/
theorem refused_moves (env : Env) (fs : Fs) (fp : Fil) (ofs : Nat) :
    (fp.err ≠ .ok → fLseek env fs fp ofs = some (fs, fp, fp.err) ∧ fTruncate env fs fp = some (fs, fp, fp.err)) ∧ (fp.err = .ok → fp.wr = false → fTruncate env fs fp = some (fs, fp, .denied)) := by
  refine ⟨fun h => ⟨if_pos h, if_pos h⟩, fun h1 h2 => ?_⟩
  unfold fTruncate
  rw [if_neg (fun x => x h1), if_pos h2]

/-! ## Sequences of operations -/

/-- The bytes of a list as a buffer of the caller -/
def buffer (b : List (BitVec 8)) : Nat → BitVec 8 := fun i => b.getD i 0

/-- One call on an open file -/
def perform (env : Env) (fs : Fs) (fp : Fil) : FileOp (BitVec 8) → Option (Fs × Fil × Fr × Answer (BitVec 8))
  | .write b => (fWrite env fs fp (buffer b) b.length).map fun r => (r.1, r.2.1, r.2.2.1, .wrote r.2.2.2)
  | .read n => (fRead env fs fp (fun _ => 0) n).map fun r => (r.1, r.2.1, r.2.2.1, .got (firstBytes r.2.2.2.2 r.2.2.2.1))
  | .seek p => (fLseek env fs fp p).map fun r => (r.1, r.2.1, r.2.2, .moved r.2.1.fptr)
  | .truncate => (fTruncate env fs fp).map fun r => (r.1, r.2.1, r.2.2, .cut)

/-- Calls one after the other, all of which must report success -/
def performAll (env : Env) (fs : Fs) (fp : Fil) : List (FileOp (BitVec 8)) → Option (Fs × Fil × List (Answer (BitVec 8)))
  | [] => some (fs, fp, [])
  | o :: os =>
    match perform env fs fp o with
    | some (fs, fp, .ok, a) => (performAll env fs fp os).map fun r => (r.1, r.2.1, a :: r.2.2)
    | _ => none

/-- The arguments are 32 bits wide. -/
def OpOk : FileOp (BitVec 8) → Prop
  | .write b => b.length < 4294967296
  | .seek p => p < 4294967296
  | _ => True

/-- The file that an open file stands for -/
def theFile (fs : Fs) (fp : Fil) (L : List Nat) : File (BitVec 8) := ⟨content fs fp L, fp.fptr⟩

theorem firstBytes_buffer (b : List (BitVec 8)) (n : Nat) (h : n ≤ b.length) : firstBytes (buffer b) n = b.take n := by
  apply List.ext_getElem?
  intro o
  rw [firstBytes_get, List.getElem?_take]
  by_cases a : o < n
  · rw [if_pos a, if_pos a]
    unfold buffer
    rw [List.getD_eq_getElem?_getD, List.getElem?_eq_getElem (by omega)]
    rfl
  · rw [if_neg a, if_neg a]

/-- One call does what the operation does to a file, and leaves the other files alone. -/
theorem perform_does {env : Env} (hq : Quiet env) (fs : Fs) (fp : Fil) (L : List Nat) (O : List (List Nat)) (h : Opened fs fp L O) (hr : fp.rd = true) (hw : fp.wr = true) (o : FileOp (BitVec 8)) (ho : OpOk o) :
    ∃ K fs' fp' a, perform env fs fp o = some (fs', fp', .ok, a) ∧ Opened fs' fp' K O ∧ fp'.rd = true ∧ fp'.wr = true ∧ (fs.Copies → fs'.Copies) ∧
      Does (theFile fs fp L) o (theFile fs' fp' K) a := by
  cases o with
  | write b =>
    obtain ⟨M, fs', fp', n, w1, w2, w3, _, w5, w6, w7, _, _, w8, w9, _⟩ := f_write_overwrites_partial hq fs fp L O h hw (buffer b) b.length ho
    refine ⟨_, fs', fp', .wrote n, by unfold perform; dsimp only; rw [w1]; rfl, w2, by rw [w8, hr], by rw [w9, hw], w3, ?_⟩
    unfold theFile
    rw [w5, w6, firstBytes_buffer b n w7]
    exact Does.write (f := ⟨content fs fp L, fp.fptr⟩) w7
  | read n =>
    obtain ⟨fs', fp', m, out, r1, r2, r3, _, r5, r6, r7, r8, _, r9, r10, _⟩ := f_read_portion hq fs fp L O h hr (fun _ => 0) n
    refine ⟨_, fs', fp', _, by unfold perform; dsimp only; rw [r1]; rfl, r2, by rw [r9, hr], by rw [r10, hw], r3, ?_⟩
    unfold theFile
    dsimp only
    have : fp'.fptr = fp.fptr + (portion (content fs fp L) fp.fptr n).length := by
      rw [r6, ← r8]
      unfold firstBytes
      rw [List.length_map, List.length_range]
    rw [r5, r8, this]
    exact Does.read (f := ⟨content fs fp L, fp.fptr⟩)
  | seek p =>
    obtain ⟨M, fs', fp', e, s1, s2, _, s3, s4, _, s5, _, s6⟩ := f_lseek_moves hq fs fp L O h p ho
    refine ⟨_, fs', fp', _, by unfold perform; dsimp only; rw [e]; rfl, s1, by rw [s3, hr], by rw [s4, hw], s2, ?_⟩
    unfold theFile
    dsimp only
    by_cases k : p ≤ fp.fsize
    · obtain ⟨t1, t2, t3⟩ := s5 k
      rw [t1, t3]
      exact Does.seek (f := ⟨content fs fp L, fp.fptr⟩) (by rw [content_length]; exact k)
    · obtain ⟨⟨new, t1, t2⟩, t3⟩ := s6 (by omega) hw
      rw [t1]
      exact Does.stretch (f := ⟨content fs fp L, fp.fptr⟩) (by omega) (by rw [content_length]; omega) (by rw [content_length]; exact t2)
  | truncate =>
    obtain ⟨K, fs', fp', e, s1, s2, _, s3, s4, _, s5, s6, _⟩ := f_truncate_cuts hq fs fp L O h hw
    refine ⟨_, fs', fp', _, by unfold perform; dsimp only; rw [e]; rfl, s1, by rw [s3, hr], by rw [s4, hw], s2, ?_⟩
    unfold theFile
    rw [s5, s6]
    exact Does.truncate (f := ⟨content fs fp L, fp.fptr⟩)

/-- Any sequence of writes, reads, seeks and truncations behaves like one on a sequence of bytes with a position. -/
theorem performAll_runs {env : Env} (hq : Quiet env) (os : List (FileOp (BitVec 8))) : ∀ (fs : Fs) (fp : Fil) (L : List Nat) (O : List (List Nat)), Opened fs fp L O → fp.rd = true → fp.wr = true →
    (∀ o ∈ os, OpOk o) → ∃ K fs' fp' as, performAll env fs fp os = some (fs', fp', as) ∧ Opened fs' fp' K O ∧ (fs.Copies → fs'.Copies) ∧ Run (theFile fs fp L) os (theFile fs' fp' K) as := by
  induction os with
  | nil => intro fs fp L O h _ _ _; exact ⟨L, fs, fp, [], rfl, h, id, .nil⟩
  | cons o os ih =>
    intro fs fp L O h hr hw ho
    obtain ⟨K, fs', fp', a, p1, p2, p3, p4, p5, p6⟩ := perform_does hq fs fp L O h hr hw o (ho o (by simp))
    obtain ⟨K', f2, g2, as, q1, q2, q3, q4⟩ := ih fs' fp' K O p2 p3 p4 fun x hx => ho x (by simp [hx])
    exact ⟨K', f2, g2, a :: as, by unfold performAll; rw [p1]; dsimp only; rw [q1]; rfl, q2, q3 ∘ p5, .cons p6 q4⟩

/-! ## Examples -/

/-- A file that has just been created, open for both -/
def newFile : Fil := { sclust := 0, clust := 0, fptr := 0, fsize := 0, dsect := 0, buf := fun _ => 0, dirty := false, written := false, rd := true, wr := true, err := .ok }

theorem newFile_opened : Opened empty newFile [] [] := by
  refine ⟨⟨empty_ok, ⟨?p, ?_, ?_⟩, empty_files, rfl, by decide, by decide, by decide, fun h => absurd h (by decide), fun h => absurd h (by decide), fun _ => Or.inl rfl, fun h => Bool.noConfusion h,
    Or.inl (by decide), by decide⟩, by decide, by decide, rfl⟩
  case p => exact 0
  · decide
  · decide

/-- The letters of the alphabet, over and over -/
def letters (n : Nat) : List (BitVec 8) := (List.range n).map fun i => BitVec.ofNat 8 (97 + i % 26)

/-- Writes across the ends of sectors and clusters, a part overwritten, a truncation -/
def story : List (FileOp (BitVec 8)) := [.write (letters 700), .seek 510, .write [1, 2, 3, 4], .seek 508, .read 8, .seek 512, .truncate, .seek 509, .read 100]

example : (performAll calm empty newFile story).map (fun r => r.2.2) =
    some [.wrote 700, .moved 510, .wrote 4, .moved 508, .got [111, 112, 1, 2, 3, 4, 117, 118], .moved 512, .cut, .moved 509, .got [112, 1, 2]] := by
  decide +kernel

example : ∃ K fs' fp' as, performAll calm empty newFile story = some (fs', fp', as) ∧ Opened fs' fp' K [] ∧ (empty.Copies → fs'.Copies) ∧
    Run (theFile empty newFile []) story (theFile fs' fp' K) as :=
  performAll_runs calm_quiet story empty newFile [] [] newFile_opened rfl rfl (by
    intro o ho
    simp only [story, List.mem_cons, List.not_mem_nil, or_false] at ho
    rcases ho with rfl | rfl | rfl | rfl | rfl | rfl | rfl | rfl | rfl <;> first | trivial | (show _ < _; decide +kernel))

/-- The file after the writes of the story: two clusters of one sector each -/
example : (performAll calm empty newFile (story.take 3)).map (fun r => (r.2.1.fsize, r.2.1.sclust, [2, 3, 4].map r.1.entryAt)) = some (700, 2, [3, 65535, 0]) := by decide +kernel

/-! ## What does not hold -/

/-- A write that fails after its first sector reports 512 written bytes, but the file has none of them, and its cluster is taken. -/
theorem aborted_write : (fWrite flaky2 empty newFile (buffer (letters 1024)) 1024).map (fun r => (r.2.2.1, r.2.2.2, r.2.1.fsize, r.2.1.err)) = some (.diskErr, 512, 0, .diskErr) := by
  decide +kernel

/-- A disk on which an earlier file has left its bytes -/
def used : Fs := { empty with disk := fun s i => if empty.database ≤ s then 115#8 else empty.disk s i }

/-- A file that is made longer by a seek shows what the clusters held before, not zeros. -/
theorem old_bytes : (performAll calm used newFile [.seek 4, .seek 0, .read 4]).map (·.2.2) = some [.moved 4, .moved 0, .got [115, 115, 115, 115]] := by
  decide +kernel

end Verif.Fat
