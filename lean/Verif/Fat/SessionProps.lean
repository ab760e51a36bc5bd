import Verif.Fat.SyncProps

/-!
# FatFs: from one `f_open` over writes, a synchronisation and a restart to the next — properties
-/

namespace Verif.Fat

open Spec (Ty Chain Files overwrite portion FileOp Answer File Does Run)

theorem Undisturbed.shape {fs fs' : Fs} {L : List Nat} (h : Undisturbed fs fs' L) : Shape fs fs' := ⟨h.ty, h.csize, h.nFats, h.nFatent, h.fsize, h.fatbase, h.database⟩

theorem Shape.place {fs fs' : Fs} (h : Shape fs fs') {vol : Nat} {O : List (List Nat)} {sl : Slot} (p : Place fs vol O sl) : Place fs' vol O sl := by
  obtain ⟨h1, h2, h3, h4, h5, h6, h7⟩ := h
  have a := p.aside
  refine ⟨p.sect, ?_, ?_, ?_, p.off, ?_⟩
  · unfold Fs.InTable; rw [h6, h5]; exact p.table
  · unfold Fs.InCopies; rw [h6, h5, h3]; exact p.copies
  · unfold Fs.Aside Fs.first at *; rw [h2, h7]; exact a
  · rw [h1, h6]; exact p.info

/-- The directory is up to date, or the file is marked as changed. -/
def Known (fs : Fs) (fp : Fil) (sl : Slot) : Prop :=
  fp.written = true ∨ (fp.dirty = false ∧ Spec.size (fs.look sl.sect) sl.off = fp.fsize ∧ Spec.start fs.ty (fs.look sl.sect) sl.off = fp.sclust)

/-- The sector of the entry is not one of the file. -/
theorem Place.other {fs fs' : Fs} (hs : Shape fs fs') {vol : Nat} {O : List (List Nat)} {sl : Slot} (p : Place fs vol O sl) {fp : Fil} {L : List Nat} (h : Opened fs' fp L O) : ¬ fs.Mine L sl.sect := by
  intro hm
  have p' := hs.place p
  have hm' : fs'.Mine L sl.sect := by
    obtain ⟨_, h2, _, _, _, _, h7⟩ := hs
    unfold Fs.Mine Fs.sec Fs.first at *
    rw [h2, h7]
    exact hm
  have hb := mine_bounds h.core.ok.layout h.core.files hm'
  rcases p'.aside with z | ⟨c, c1, c2⟩
  · have := hb.1; omega
  · exact hb.2.2.2 c c1 c2

theorem known_of {fs fs' : Fs} {fp fp' : Fil} {sl : Slot} (hk : Known fs fp sl) (hm : Marked fp fp') (hl : fs'.look sl.sect = fs.look sl.sect) (ht : fs'.ty = fs.ty)
    (hc : fp'.fsize = fp.fsize → fp'.sclust = fp.sclust) : Known fs' fp' sl := by
  rcases hm with hm | ⟨m1, m2, m3⟩
  · exact Or.inl hm
  · rcases hk with hk | ⟨k1, k2, k3⟩
    · exact Or.inl (m1.trans hk)
    · refine Or.inr ⟨?_, by rw [hl, k2, m2], by rw [hl, ht, k3, hc m2]⟩
      cases e : fp'.dirty with
      | false => rfl
      | true => rw [m3 e] at k1; exact Bool.noConfusion k1

/-- Every operation on an open file that changes what the directory should say, or leaves bytes in the buffer, marks the file; the entry stays as it is until then. -/
theorem perform_keeps {env : Env} (hq : Quiet env) (fs : Fs) (vol : Nat) (fp : Fil) (L : List Nat) (O : List (List Nat)) (sl : Slot) (h : Opened fs fp L O) (hp : Place fs vol O sl) (hk : Known fs fp sl)
    (hr : fp.rd = true) (hw : fp.wr = true) (o : FileOp (BitVec 8)) (ho : OpOk o) {fs' : Fs} {fp' : Fil} {a : Answer (BitVec 8)} (e : perform env fs fp o = some (fs', fp', .ok, a)) :
    Shape fs fs' ∧ Known fs' fp' sl ∧ fs'.look sl.sect = fs.look sl.sect := by
  cases o with
  | write b =>
    obtain ⟨M, f, g, n, w1, w2, w3, w4, _, _, _, _, _, _, _, w5⟩ := f_write_overwrites_partial hq fs fp L O h hw (buffer b) b.length ho
    unfold perform at e
    dsimp only at e
    rw [w1] at e
    cases e
    exact ⟨w4.shape, Or.inl w5, w4.outside _ hp.copies hp.table (hp.other w4.shape w2)⟩
  | read n =>
    obtain ⟨f, g, m, out, r1, r2, r3, r4, _, _, _, _, _, _, _, r5⟩ := f_read_portion hq fs fp L O h hr (fun _ => 0) n
    unfold perform at e
    dsimp only at e
    rw [r1] at e
    cases e
    have hl := r4.outside _ hp.copies hp.table (hp.other r4.shape r2)
    exact ⟨r4.shape, known_of hk r5 hl r4.ty fun _ => by rw [r2.core.start, h.core.start], hl⟩
  | seek p =>
    obtain ⟨M, f, g, s0, s1, s2, s3, _, _, s4, s5, _, s6⟩ := f_lseek_moves hq fs fp L O h p ho
    unfold perform at e
    dsimp only at e
    rw [s0] at e
    cases e
    have hl := s3.outside _ hp.copies hp.table (hp.other s3.shape s1)
    refine ⟨s3.shape, known_of hk s4 hl s3.ty fun hz => ?_, hl⟩
    dsimp only at hz ⊢
    rw [s1.core.start, h.core.start]
    cases L with
    | cons x K => rfl
    | nil =>
      have hsz : fp.fsize = 0 := by
        have := h.core.size
        simpa using this
      by_cases k : p ≤ fp.fsize
      · rw [(s5 k).2.1]
        rfl
      · obtain ⟨⟨new, t1, t2⟩, t3⟩ := s6 (by omega) hw
        have hlen := congrArg List.length t1
        rw [t2, content_length] at hlen
        cases M with
        | nil => rfl
        | cons y M =>
          exfalso
          have hc := h.core.ok.layout.clus
          rcases t3 with t3 | ⟨_, t3, _⟩
          · omega
          · rw [List.nil_append, List.length_cons, show (M.length + 1) * (fs.csize * 512) = M.length * (fs.csize * 512) + fs.csize * 512 from Nat.succ_mul ..] at t3
            generalize M.length * (fs.csize * 512) = N at t3
            omega
  | truncate =>
    obtain ⟨K, f, g, s0, s1, s2, s3, _, _, s4, s5, _, s6, s7⟩ := f_truncate_cuts hq fs fp L O h hw
    unfold perform at e
    dsimp only at e
    rw [s0] at e
    cases e
    have hin := h.inside
    have hl := s3.outside _ hp.copies hp.table (hp.other (Shape.refl _) h)
    refine ⟨s3.shape, known_of hk s4 hl s3.ty fun hz => ?_, hl⟩
    dsimp only at hz ⊢
    have hlen := congrArg List.length s5
    rw [content_length, List.length_take, content_length] at hlen
    rw [s1.core.start, h.core.start, s6 (by omega)]

theorem performAll_keeps {env : Env} (hq : Quiet env) (vol : Nat) (O : List (List Nat)) (sl : Slot) (os : List (FileOp (BitVec 8))) : ∀ (fs : Fs) (fp : Fil) (L : List Nat), Opened fs fp L O → Place fs vol O sl →
    Known fs fp sl → fp.rd = true → fp.wr = true → (∀ o ∈ os, OpOk o) →
    ∃ K fs' fp' as, performAll env fs fp os = some (fs', fp', as) ∧ Opened fs' fp' K O ∧ fp'.rd = true ∧ fp'.wr = true ∧ (fs.Copies → fs'.Copies) ∧ Run (theFile fs fp L) os (theFile fs' fp' K) as ∧
      Shape fs fs' ∧ Known fs' fp' sl ∧ fs'.look sl.sect = fs.look sl.sect := by
  induction os with
  | nil => intro fs fp L h _ hk hr hw _; exact ⟨L, fs, fp, [], rfl, h, hr, hw, id, .nil, .refl _, hk, rfl⟩
  | cons o os ih =>
    intro fs fp L h hp hk hr hw ho
    obtain ⟨K, fs', fp', a, p1, p2, p3, p4, p5, p6⟩ := perform_does hq fs fp L O h hr hw o (ho o (by simp))
    obtain ⟨n1, n2, n3⟩ := perform_keeps hq fs vol fp L O sl h hp hk hr hw o (ho o (by simp)) p1
    obtain ⟨K', f2, g2, as, q1, q2, q3, q4, q5, q6, q7, q8, q9⟩ := ih fs' fp' K p2 (n1.place hp) n2 p3 p4 fun x hx => ho x (by simp [hx])
    exact ⟨K', f2, g2, a :: as, by unfold performAll; rw [p1]; dsimp only; rw [q1]; rfl, q2, q3, q4, q5 ∘ p5, .cons p6 q6, n1.trans q7, q8, q9.trans n3⟩

/-- An open file whose directory entry is up to date -/
theorem Opened.entry {fs : Fs} {fp : Fil} {L : List Nat} {O : List (List Nat)} {sl : Slot} (h : Opened fs fp L O) (hd : fp.dirty = false) (h1 : Spec.size (fs.look sl.sect) sl.off = fp.fsize)
    (h2 : Spec.start fs.ty (fs.look sl.sect) sl.off = fp.sclust) : Entry fs L O sl (content fs fp L) := by
  refine ⟨h.core.ok, h.core.pow, h.core.files, h.core.away, by rw [h2, h.core.start], by rw [content_length, h1], by rw [content_length]; exact h.core.size, fun o ho => ?_⟩
  rw [content_length] at ho
  rw [content_get, if_pos ho]
  unfold view cell
  rw [if_neg (fun x => by rw [hd] at x; exact Bool.noConfusion x.1)]

/-- A volume of which nothing waits to be written is found again after a restart. -/
theorem Entry.restart {fs f : Fs} {L : List Nat} {O : List (List Nat)} {sl : Slot} {data : List (BitVec 8)} (h : Entry fs L O sl data) (hw : fs.wflag = false) (hr : Remounted fs fs.disk f) :
    Entry f L O sl data ∧ f.look sl.sect = fs.look sl.sect := by
  have hfl : f.Layout := Fs.layout_with h.ok.layout hr.ty hr.csize hr.nFats hr.nFatent hr.fsize hr.fatbase hr.database
  have hend := Fs.layout_fatend hfl
  have hbefore := hr.before
  have hok : f.Ok := ⟨hfl, fun _ => by rw [hr.disk]; exact hr.win, by unfold Fs.InCopies; omega, by omega⟩
  have hlook : ∀ s, f.look s = fs.look s := fun s => by rw [look_clean hok hr.clean, hr.disk, look_clean h.ok hw]
  have hent : ∀ c, c < fs.nFatent → f.entryAt c = fs.entryAt c := entries_of_look h.ok.layout hr.ty hr.fatbase fun s _ j _ => by rw [hlook]
  refine ⟨⟨hok, by rw [hr.csize]; exact h.pow, ?_, Or.inl (by omega), ?_, ?_, ?_, fun o ho => ?_⟩, hlook _⟩
  · rw [hr.nFatent]
    exact files_congr h.files hent
  · rw [hlook, hr.ty, h.start]
  · rw [hlook, h.size]
  · rw [hr.csize]
    exact h.fits
  · rw [hr.disk, ← h.bytes o ho]
    unfold Fs.sec Fs.first
    rw [hr.csize, hr.database]

theorem Remounted.of_shape {fs fs' f : Fs} (h : Shape fs fs') {D : Nat → Sector} (hr : Remounted fs D f) : Remounted fs' D f := by
  obtain ⟨h1, h2, h3, h4, h5, h6, h7⟩ := h
  exact ⟨hr.ty.trans h1.symm, hr.csize.trans h2.symm, hr.nFats.trans h3.symm, hr.nFatent.trans h4.symm, hr.fsize.trans h5.symm, hr.fatbase.trans h6.symm, hr.database.trans h7.symm, hr.disk, hr.clean, hr.win,
    hr.before⟩

theorem Remounted.shape {fs f : Fs} {D : Nat → Sector} (hr : Remounted fs D f) : Shape fs f := ⟨hr.ty, hr.csize, hr.nFats, hr.nFatent, hr.fsize, hr.fatbase, hr.database⟩

/-- `f_sync` of a file whose entry is known: the volume has the file with its bytes. If the file was marked, or nothing in the window waited to be written, the disk alone has it too. -/
theorem sync_entry_partial {env : Env} (hq : Quiet env) (vol tm : Nat) (fs : Fs) (fp : Fil) (L : List Nat) (O : List (List Nat)) (sl : Slot) (h : Opened fs fp L O) (hp : Place fs vol O sl)
    (hk : Known fs fp sl) :
    ∃ fs' fp', fSync env vol tm fs fp sl = (fs', fp', .ok) ∧ Opened fs' fp' L O ∧ content fs' fp' L = content fs fp L ∧ Shape fs fs' ∧ fp'.written = false ∧ Known fs' fp' sl ∧
      (∃ x, (x = 0 ∨ x = 0x20) ∧ fs'.look sl.sect (sl.off + 11) = fs.look sl.sect (sl.off + 11) ||| x) ∧ Entry fs' L O sl (content fs fp L) ∧
      ∀ f, (fp.written = true ∨ fs.wflag = false) → Remounted fs fs'.disk f → Entry f L O sl (content fs fp L) ∧ Place f vol O sl ∧ f.look sl.sect = fs'.look sl.sect := by
  by_cases hw : fp.written = true
  · obtain ⟨fs', fp', s1, s2⟩ := f_sync_writes_partial hq vol tm fs fp L O sl h hp hw
    have hsh : Shape fs fs' := s2.shape
    have hlook : ∀ s, fs'.look s = fs'.disk s := look_clean s2.opened.core.ok s2.clean.2.2
    have hsize : fp'.fsize = fp.fsize := by
      have := congrArg List.length s2.content
      rwa [content_length, content_length] at this
    have k1 : Spec.size (fs'.look sl.sect) sl.off = fp'.fsize := by rw [hlook, s2.size, hsize]
    have k2 : Spec.start fs'.ty (fs'.look sl.sect) sl.off = fp'.sclust := by rw [hlook, hsh.1, s2.start, s2.opened.core.start, h.core.start]
    have he : Entry fs' L O sl (content fs fp L) := s2.content ▸ s2.opened.entry s2.clean.2.1 k1 k2
    refine ⟨fs', fp', s1, s2.opened, s2.content, hsh, s2.clean.1, Or.inr ⟨s2.clean.2.1, k1, k2⟩, ⟨0x20, Or.inr rfl, by rw [hlook, s2.attr]⟩, he, fun f _ hr => ?_⟩
    obtain ⟨r1, r2⟩ := he.restart s2.clean.2.2 (hr.of_shape hsh)
    exact ⟨r1, hr.shape.place hp, r2⟩
  · have hw' : fp.written = false := by simpa using hw
    obtain ⟨k1, k2, k3⟩ := hk.resolve_left hw
    have he := h.entry k1 k2 k3
    refine ⟨fs, fp, f_sync_idle env vol tm fs fp sl hw', h, rfl, .refl _, hw', Or.inr ⟨k1, k2, k3⟩, ⟨0, Or.inl rfl, by simp⟩, he, fun f hc hr => ?_⟩
    obtain ⟨r1, r2⟩ := he.restart (hc.resolve_left hw) hr
    exact ⟨r1, hr.shape.place hp, r2⟩

/-- From one `f_open` to the next: a file is opened, any calls are made on it, it is synchronised (or closed) and opened again. The calls answer like those on the list of its bytes, and what is
found the second time is the list after the calls. If anything has been changed, this holds as well if the memory is lost after the synchronisation. -/
theorem session_partial {env env' : Env} (hq : Quiet env) (hq' : Quiet env') (vol tm tm' : Nat) (fs : Fs) (L : List Nat) (O : List (List Nat)) (sl : Slot) (data : List (BitVec 8)) (h : Entry fs L O sl data)
    (hp : Place fs vol O sl) (ha : fs.look sl.sect (sl.off + 11) &&& 0x11 = 0) (m : Mode) (hm : m.rd = true ∧ m.wr = true ∧ m.always = false ∧ m.new = false) (old : Fil)
    (os : List (FileOp (BitVec 8))) (ho : ∀ o ∈ os, OpOk o) :
    ∃ f1 g1 f2 g2 as f3 g3 data' pos K, fOpen env fs sl m tm old = some (f1, g1, .ok) ∧ performAll env f1 g1 os = some (f2, g2, as) ∧ Run ⟨data, 0⟩ os ⟨data', pos⟩ as ∧
      fSync env vol tm f2 g2 sl = (f3, g3, .ok) ∧
      ∀ f, f = f3 ∨ (g2.written = true ∧ Remounted fs f3.disk f) →
        ∃ f4 g4, fOpen env' f sl m tm' old = some (f4, g4, .ok) ∧ Opened f4 g4 K O ∧ content f4 g4 K = data' ∧ g4.fptr = 0 := by
  obtain ⟨f1, g1, a1, a2, a3, a4, a5, a6, a7, a8, a9, a10⟩ := f_open_reads hq fs vol L O sl data h hp m tm old ⟨hm.2.2.1, hm.2.2.2⟩ ha
  have hl := a10 _ hp.copies hp.table
  have hk : Known f1 g1 sl := by
    refine Or.inr ⟨a8, ?_, by rw [hl, a9.1, h.start, a2.core.start]⟩
    rw [hl, h.size, ← a3, content_length]
  obtain ⟨K, f2, g2, as, p1, p2, p3, p4, _, p5, p6, p7, p8⟩ := performAll_keeps hq vol O sl os f1 g1 L a2 (a9.place hp) hk (a5.trans hm.1) (a6.trans hm.2.1) ho
  obtain ⟨f3, g3, s1, s2, s3, s4, s5, s6, ⟨x, x1, x2⟩, s7, s8⟩ := sync_entry_partial hq vol tm f2 g2 K O sl p2 (p6.place (a9.place hp)) p7
  refine ⟨f1, g1, f2, g2, as, f3, g3, content f2 g2 K, g2.fptr, K, a1, p1, ?_, s1, fun f hf => ?_⟩
  · have := p5
    unfold theFile at this
    rwa [a3, a4] at this
  · have hsh : Shape fs f3 := (a9.trans p6).trans s4
    have hat : f3.look sl.sect (sl.off + 11) &&& 0x11 = 0 := by
      rw [x2, p8, hl]
      have hbits : ∀ a : BitVec 8, a &&& 0x11 = 0 → (a ||| 0) &&& 0x11 = 0 ∧ (a ||| 0x20) &&& 0x11 = 0 := by decide +kernel
      rcases x1 with rfl | rfl
      · exact (hbits _ ha).1
      · exact (hbits _ ha).2
    obtain ⟨e1, e2, e3⟩ : Entry f K O sl (content f2 g2 K) ∧ Place f vol O sl ∧ f.look sl.sect = f3.look sl.sect := by
      rcases hf with rfl | ⟨w, hr⟩
      · exact ⟨s7, hsh.place hp, rfl⟩
      · exact s8 f (Or.inl w) (hr.of_shape (a9.trans p6))
    obtain ⟨f4, g4, t1, t2, t3, t4, _⟩ := f_open_reads hq' f vol K O sl _ e1 e2 m tm' old ⟨hm.2.2.1, hm.2.2.2⟩ (by rw [e3]; exact hat)
    exact ⟨f4, g4, t1, t2, t3, t4⟩

/-! ## Examples -/

/-- An empty file whose entry is at `place` -/
theorem empty_entry : Entry empty [] [] place [] :=
  ⟨empty_ok, newFile_opened.core.pow, empty_files, Or.inl (by decide), by decide +kernel, by decide +kernel, Nat.zero_le _, fun o ho => absurd ho (Nat.not_lt_zero o)⟩

/-- The story of `SeekProps` between two times of opening -/
example : ∃ f1 g1 f2 g2 as f3 g3 data' pos K, fOpen calm empty place plain 1 newFile = some (f1, g1, .ok) ∧ performAll calm f1 g1 story = some (f2, g2, as) ∧ Run ⟨[], 0⟩ story ⟨data', pos⟩ as ∧
    fSync calm 0 1 f2 g2 place = (f3, g3, .ok) ∧
    ∀ f, f = f3 ∨ (g2.written = true ∧ Remounted empty f3.disk f) → ∃ f4 g4, fOpen calm f place plain 2 newFile = some (f4, g4, .ok) ∧ Opened f4 g4 K [] ∧ content f4 g4 K = data' ∧ g4.fptr = 0 :=
  session_partial calm_quiet calm_quiet 0 1 2 empty [] [] place [] empty_entry empty_place (by decide +kernel) plain ⟨rfl, rfl, rfl, rfl⟩ newFile story (by
    intro o ho
    simp only [story, List.mem_cons, List.not_mem_nil, or_false] at ho
    rcases ho with rfl | rfl | rfl | rfl | rfl | rfl | rfl | rfl | rfl <;> first | trivial | (show _ < _; decide +kernel))

/-- The same by calculation, with a restart: the file has the 512 bytes that are left after the truncation. -/
def retold : Option (Bool × Nat × List (Answer (BitVec 8))) := do
  let (f1, g1, _) ← fOpen calm empty place plain 1 newFile
  let (f2, g2, _) ← performAll calm f1 g1 story
  let (f3, _, _) := fSync calm 0 1 f2 g2 place
  let (f4, g4, _) ← fOpen calm (mounted f3.disk) place plain 2 newFile
  let (_, g5, as) ← performAll calm f4 g4 [.seek 506, .read 100]
  pure (g2.written, g5.fsize, as)

example : retold = some (true, 512, [.moved 506, .got [109, 110, 111, 112, 1, 2]]) := by decide +kernel

end Verif.Fat
