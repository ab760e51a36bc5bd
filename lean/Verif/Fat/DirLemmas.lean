import Verif.Fat.DirModel
import Verif.Fat.DirSpec
import Verif.Fat.SyncProps

/-!
# FatFs: directories — lemmas
-/

namespace Verif.Fat

open Spec (Ty Chain Files Item named FoundAt Absent FreeAt Full)

/-- Nothing is seen to change. -/
structure Seen (fs fs' : Fs) : Prop where
  shape : Shape fs fs'
  ok : fs'.Ok
  copies : fs.Copies → fs'.Copies
  outside : ∀ s, ¬ fs.InCopies s → ¬ fs.InTable s → fs'.look s = fs.look s
  entries : ∀ c, c < fs.nFatent → fs'.entryAt c = fs.entryAt c

theorem Shape.inCopies {a b : Fs} (h : Shape a b) (s : Nat) : b.InCopies s ↔ a.InCopies s := by
  obtain ⟨_, _, h3, _, h5, h6, _⟩ := h
  unfold Fs.InCopies
  rw [h3, h5, h6]

theorem Shape.inTable {a b : Fs} (h : Shape a b) (s : Nat) : b.InTable s ↔ a.InTable s := by
  obtain ⟨_, _, _, _, h5, h6, _⟩ := h
  unfold Fs.InTable
  rw [h5, h6]

theorem Shape.sec {a b : Fs} (h : Shape a b) (L : List Nat) (i : Nat) : b.sec L i = a.sec L i := by
  obtain ⟨_, h2, _, _, _, _, h7⟩ := h
  unfold Fs.sec Fs.first
  rw [h2, h7]

theorem Seen.refl {fs : Fs} (h : fs.Ok) : Seen fs fs := ⟨Shape.refl fs, h, id, fun _ _ _ => rfl, fun _ _ => rfl⟩

theorem Seen.trans {a b c : Fs} (h : Seen a b) (k : Seen b c) : Seen a c := by
  refine ⟨h.shape.trans k.shape, k.ok, fun x => k.copies (h.copies x), fun s h1 h2 => ?_, fun x hx => ?_⟩
  · rw [k.outside s (by rw [h.shape.inCopies]; exact h1) (by rw [h.shape.inTable]; exact h2), h.outside s h1 h2]
  · rw [k.entries x (by rw [h.shape.2.2.2.1]; exact hx), h.entries x hx]

theorem Step.seen {a b : Fs} (h : Step a b a.entryAt) : Seen a b :=
  ⟨⟨h.ty, h.csize, h.nFats, h.nFatent, h.fsize, h.fatbase, h.database⟩, h.ok, h.copies, h.outside, h.entries⟩

theorem Eff.seen {a b : Fs} (h : Eff a b a.tab) (l : a.Layout) : Seen a b :=
  ⟨⟨h.same.ty, h.same.csize, h.same.nFats, h.same.nFatent, h.same.fsize, h.same.fatbase, h.same.database⟩, h.ok, h.copies, h.outside, fun c hc => (h.entry l hc).trans rfl⟩

theorem move_seen {env : Env} (hq : Quiet env) (fs : Fs) (h : fs.Ok) (s : Nat) (hs : s < 4294967296) (hc : ¬ fs.InCopies s) :
    ∃ fs', fs.move env s = (fs', true) ∧ fs'.winsect = s ∧ Seen fs fs' ∧ fs'.win = fs'.look s := by
  obtain ⟨a, b, c⟩ := fs.move_quiet hq h s hs hc
  refine ⟨(fs.move env s).1, Prod.ext rfl a, b, c.seen h.layout, ?_⟩
  unfold Fs.look
  rw [if_pos b.symm]

theorem get_seen {env : Env} (hq : Quiet env) (fs : Fs) (h : fs.Ok) (c : Nat) (h2 : 2 ≤ c) (hc : c < fs.nFatent) : ∃ fs', fs.getFat env c = (fs', fs.entryAt c) ∧ Seen fs fs' := by
  obtain ⟨f, a, b, _⟩ := fs.get_step hq h c h2 hc
  exact ⟨f, a, b.seen⟩

/-! ## Where directories are -/

/-- The directory with the start cluster `cl` (0: the root) has the clusters `L` and the sectors `S 0` to `S (n - 1)`. -/
inductive Area (fs : Fs) (rt : Root) : Nat → List Nat → (Nat → Nat) → Nat → Prop
  /-- The root of volumes with 12 and 16 bits: between the tables and the data -/
  | static : fs.ty ≠ .fat32 → rt.nRoot % 16 = 0 → 0 < rt.nRoot → fs.fatbase + fs.nFats * fs.fsize ≤ rt.dirbase → rt.dirbase + rt.nRoot / 16 ≤ fs.database →
      Area fs rt 0 [] (fun i => rt.dirbase + i) (rt.nRoot / 16)
  /-- Other directories: chains of clusters -/
  | chain {cl c : Nat} {L : List Nat} : (cl = c ∨ (cl = 0 ∧ fs.ty = .fat32 ∧ rt.dirbase = c)) → Chain fs.entryAt fs.nFatent c L → Area fs rt cl L (fs.sec L) (L.length * fs.csize)

theorem Area.pos {fs : Fs} {rt : Root} {cl n : Nat} {L : List Nat} {S : Nat → Nat} (h : Area fs rt cl L S n) (hl : fs.Layout) : 0 < n := by
  cases h with
  | static _ h1 h2 _ _ => omega
  | chain _ hc =>
    obtain ⟨L', rfl⟩ := hc.head
    exact Nat.mul_pos (by simp) hl.clus

/-- The sectors of a directory are outside of the tables. -/
theorem Area.sector {fs : Fs} {rt : Root} {cl n : Nat} {L : List Nat} {S : Nat → Nat} (h : Area fs rt cl L S n) (hl : fs.Layout) {i : Nat} (hi : i < n) :
    S i < 4294967296 ∧ S i ≠ 0 ∧ ¬ fs.InCopies (S i) ∧ ¬ fs.InTable (S i) := by
  have hb := hl.base
  have hend := Fs.layout_fatend hl
  have harea := hl.area
  have hm : fs.fsize ≤ fs.nFats * fs.fsize := Nat.le_mul_of_pos_left _ hl.fats
  unfold Fs.InCopies Fs.InTable
  cases h with
  | static _ h1 h2 h3 h4 =>
    dsimp only
    generalize fs.nFats * fs.fsize = N at *
    omega
  | chain _ hc =>
    obtain ⟨s1, s2, s3⟩ := sec_mem hi hl.clus
    obtain ⟨m1, m2, _⟩ := hc.mem s2
    have := first_bounds hl m1 m2
    have e : fs.sec L i = fs.first (L.getD (i / fs.csize) 0) + i % fs.csize := rfl
    rw [e]
    generalize fs.nFats * fs.fsize = N at *
    omega

theorem Area.seen {a b : Fs} {rt : Root} {cl n : Nat} {L : List Nat} {S : Nat → Nat} (h : Area a rt cl L S n) (hs : Seen a b) : Area b rt cl L S n := by
  have hsh := hs.shape
  obtain ⟨h1, h2, h3, h4, h5, h6, h7⟩ := hs.shape
  cases h with
  | static g1 g2 g3 g4 g5 => exact .static (by rw [h1]; exact g1) g2 g3 (by rw [h6, h3, h5]; exact g4) (by rw [h7]; exact g5)
  | chain g hc =>
    have e : a.sec L = b.sec L := funext fun i => (hsh.sec L i).symm
    rw [e, ← h2]
    exact .chain (by rw [h1]; exact g) (by rw [h4]; exact hc.congr fun x hx => hs.entries x (hc.mem hx).2.1)

/-- The entries of a directory -/
def entryOf (fs : Fs) (S : Nat → Nat) (i : Nat) : Item := fun j => if j < 32 then fs.look (S (i / 16)) (i % 16 * 32 + j) else 0

/-- The directory: its entries, of which not more than 65536 are used -/
def dirOf (fs : Fs) (S : Nat → Nat) (n : Nat) : List Item := (List.range (min (16 * n) 65536)).map (entryOf fs S)

theorem dirOf_get (fs : Fs) (S : Nat → Nat) (n i : Nat) : (dirOf fs S n)[i]? = if i < 16 * n ∧ i < 65536 then some (entryOf fs S i) else none := by
  unfold dirOf
  rw [List.getElem?_map]
  by_cases h : i < 16 * n ∧ i < 65536
  · rw [if_pos h, List.getElem?_range (by omega)]
    rfl
  · rw [if_neg h, List.getElem?_eq_none (by simp; omega)]
    rfl

theorem dirOf_seen {a b : Fs} {rt : Root} {cl n : Nat} {L : List Nat} {S : Nat → Nat} (h : Area a rt cl L S n) (hl : a.Layout) (hs : Seen a b) : dirOf b S n = dirOf a S n := by
  apply List.ext_getElem?
  intro i
  rw [dirOf_get, dirOf_get]
  by_cases hi : i < 16 * n ∧ i < 65536
  · rw [if_pos hi, if_pos hi]
    obtain ⟨_, _, s3, s4⟩ := h.sector hl (i := i / 16) (by omega)
    unfold entryOf
    rw [hs.outside _ s3 s4]
  · rw [if_neg hi, if_neg hi]

/-- The object of a directory is at entry `i`. -/
structure AtItem (fs : Fs) (cl : Nat) (L : List Nat) (S : Nat → Nat) (n : Nat) (dp : Dir) (i : Nat) : Prop where
  index : dp.index = i
  sclust : dp.sclust = cl
  clust : dp.clust = L.getD (i / 16 / fs.csize) 0
  sect : dp.sect = S (i / 16)
  off : dp.off = i % 16 * 32
  inside : i < 16 * n ∧ i < 65536

theorem AtItem.seen {a b : Fs} {cl n i : Nat} {L : List Nat} {S : Nat → Nat} {dp : Dir} (h : AtItem a cl L S n dp i) (hs : Seen a b) : AtItem b cl L S n dp i :=
  ⟨h.index, h.sclust, by rw [hs.shape.2.1]; exact h.clust, h.sect, h.off, h.inside⟩

theorem chain_at {tbl : Nat → Nat} {n c : Nat} {L : List Nat} (h : Chain tbl n c L) : ∀ k, k < L.length →
    2 ≤ L.getD k 0 ∧ L.getD k 0 < n ∧ (k + 1 < L.length → tbl (L.getD k 0) = L.getD (k + 1) 0) ∧ (k + 1 = L.length → n ≤ tbl (L.getD k 0)) := by
  induction h with
  | last h1 h2 h3 =>
    intro k hk
    have : k = 0 := by simpa using hk
    subst this
    exact ⟨h1, h2, fun x => absurd x (by simp), fun _ => h3⟩
  | link h1 h2 h3 h4 hc ih =>
    rename_i c L
    intro k hk
    cases k with
    | zero =>
      refine ⟨h1, h2, fun _ => ?_, fun x => ?_⟩
      · obtain ⟨L', rfl⟩ := hc.head
        rfl
      · obtain ⟨L', rfl⟩ := hc.head
        simp at x
    | succ k =>
      obtain ⟨a, b, d, e⟩ := ih k (by simpa using hk)
      exact ⟨a, b, fun x => d (by simpa using x), fun x => e (by simpa using x)⟩

theorem and_mask (x c p : Nat) (h : c = 2 ^ p) : x &&& (c - 1) = x % c := by
  subst h
  exact Nat.and_two_pow_sub_one_eq_mod x p

theorem sdiLoop_spec {env : Env} (hq : Quiet env) (ic : Nat) (hi : 0 < ic) : ∀ (k : Nat) (fs : Fs) (c : Nat) (L : List Nat) (idx : Nat), fs.Ok → Chain fs.entryAt fs.nFatent c L → idx < L.length * ic → idx < k →
    ∃ fs', sdiLoop env ic k fs c idx = some (fs', .inr (L.getD (idx / ic) 0, idx % ic)) ∧ Seen fs fs' := by
  intro k
  induction k with
  | zero => intro _ _ _ _ _ _ _ h; omega
  | succ k ih =>
    intro fs c L idx hok hc hl hk
    unfold sdiLoop
    obtain ⟨L', rfl⟩ := hc.head
    by_cases h : idx ≥ ic
    · rw [if_pos h]
      have hm := chain_at hc 0 (by simp)
      obtain ⟨f, g1, g2⟩ := get_seen hq fs hok c hm.1 hm.2.1
      rw [g1]
      dsimp only
      cases hc with
      | last h1 h2 h3 => rw [List.length_singleton] at hl; omega
      | link h1 h2 h3 h4 hc' =>
        have hlt := fs.entryAt_lt c
        rw [if_neg (by omega), if_neg (by rw [g2.shape.2.2.2.1]; omega)]
        have hl' : idx - ic < L'.length * ic := by
          rw [List.length_cons, show (L'.length + 1) * ic = L'.length * ic + ic from Nat.succ_mul ..] at hl
          omega
        obtain ⟨f', q1, q2⟩ := ih f (fs.entryAt c) L' (idx - ic) g2.ok (by rw [g2.shape.2.2.2.1]; exact hc'.congr fun x hx => g2.entries x (hc'.mem hx).2.1) hl' (by omega)
        refine ⟨f', ?_, g2.trans q2⟩
        rw [q1]
        have e1 : idx / ic = (idx - ic) / ic + 1 := by rw [Nat.div_eq_sub_div hi h]
        rw [e1, Nat.mod_eq_sub_mod h]
        rfl
    · rw [if_neg h, Nat.div_eq_of_lt (by omega), Nat.mod_eq_of_lt (by omega)]
      exact ⟨fs, rfl, Seen.refl hok⟩

theorem sdi_spec {env : Env} (hq : Quiet env) (rt : Root) {fs : Fs} {cl n : Nat} {L : List Nat} {S : Nat → Nat} (h : Area fs rt cl L S n) (hok : fs.Ok) (dp : Dir) (hd : dp.sclust = cl) (idx : Nat)
    (hi : idx < 16 * n ∧ idx < 65536) : ∃ fs' dp', dirSdi env rt fs dp idx = some (fs', dp', .ok) ∧ Seen fs fs' ∧ AtItem fs' cl L S n dp' idx := by
  have hl := hok.layout
  have hent := Fs.ents_lt hok
  have hcs := hl.clus
  unfold dirSdi
  dsimp only
  rw [hd]
  cases h with
  | static g1 g2 g3 g4 g5 =>
    have e : (if 0 = 0 ∧ fs.ty = .fat32 then rt.dirbase else 0) = 0 := if_neg (fun x => g1 x.2)
    rw [if_neg (by omega), e, if_pos rfl, if_neg (by omega)]
    unfold placed
    dsimp only
    have hb := hl.base
    have hend := Fs.layout_fatend hl
    rw [if_neg (by omega), u32_of (by omega)]
    exact ⟨fs, _, rfl, Seen.refl hok, ⟨Nat.mod_eq_of_lt hi.2, rfl, rfl, rfl, rfl, hi⟩⟩
  | chain g hc =>
    rename_i c
    have hm := chain_at hc 0 (by obtain ⟨L', rfl⟩ := hc.head; simp)
    have hc0 : L.getD 0 0 = c := by obtain ⟨L', rfl⟩ := hc.head; rfl
    rw [hc0] at hm
    rw [if_neg (by rcases g with rfl | ⟨rfl, _, _⟩ <;> omega)]
    have e : (if cl = 0 ∧ fs.ty = .fat32 then rt.dirbase else cl) = c := by
      rcases g with rfl | ⟨rfl, g2, g3⟩
      · rw [if_neg (fun x => by omega)]
      · rw [if_pos ⟨rfl, g2⟩, g3]
    rw [e, if_neg (by omega)]
    have hlt : idx < L.length * (16 * fs.csize) := by
      rw [show L.length * (16 * fs.csize) = 16 * (L.length * fs.csize) by rw [Nat.mul_left_comm]]
      exact hi.1
    obtain ⟨f, q1, q2⟩ := sdiLoop_spec hq (16 * fs.csize) (by omega) (idx + 1) fs c L idx hok hc hlt (by omega)
    rw [q1]
    dsimp only
    have hk : idx / (16 * fs.csize) < L.length := (Nat.div_lt_iff_lt_mul (by omega)).mpr hlt
    have hm' := chain_at hc _ hk
    obtain ⟨c1, c2⟩ := clust2sect_eq q2.ok.layout hm'.1 (by rw [q2.shape.2.2.2.1]; exact hm'.2.1)
    unfold placed
    dsimp only
    rw [if_neg (by rw [c1]; exact c2), c1]
    have hdv : idx / 16 / fs.csize = idx / (16 * fs.csize) := Nat.div_div_eq_div_mul ..
    have hmd : idx % (16 * fs.csize) / 16 = idx / 16 % fs.csize := Nat.mod_mul_right_div_self ..
    have hmm : idx % (16 * fs.csize) % 16 = idx % 16 := Nat.mod_mul_right_mod ..
    have hsx : f.first (L.getD (idx / (16 * fs.csize)) 0) + idx % (16 * fs.csize) / 16 = fs.sec L (idx / 16) := by
      rw [hmd, ← hdv, ← q2.shape.sec L]
      unfold Fs.sec
      rw [q2.shape.2.1]
    have hs : fs.sec L (idx / 16) < 4294967296 := ((Area.chain (rt := rt) (cl := cl) g hc).sector hl (i := idx / 16) (by omega)).1
    rw [hsx, u32_of hs]
    exact ⟨f, _, rfl, q2, ⟨Nat.mod_eq_of_lt hi.2, rfl, by rw [q2.shape.2.1, hdv], rfl, by dsimp only; rw [hmm], hi⟩⟩

theorem div_step {a c : Nat} (hc : 0 < c) (h : (a + 1) % c ≠ 0) : a % c + 1 < c ∧ (a + 1) / c = a / c := by
  have h0 := Nat.mod_lt a hc
  have e := Nat.div_add_mod a c
  have h1 : a % c + 1 < c := by
    by_cases x : a % c + 1 = c
    · exfalso
      apply h
      have : a + 1 = c * (a / c + 1) := by rw [Nat.mul_add, Nat.mul_one]; omega
      rw [this, Nat.mul_mod_right]
    · omega
  refine ⟨h1, ?_⟩
  have : a + 1 = (a % c + 1) + c * (a / c) := by omega
  rw [this, Nat.add_mul_div_left _ _ hc, Nat.div_eq_of_lt h1, Nat.zero_add]

/-- The next entry, or the end -/
theorem next_spec {env : Env} (hq : Quiet env) (rt : Root) {fs : Fs} {cl n : Nat} {L : List Nat} {S : Nat → Nat} (h : Area fs rt cl L S n) (hok : fs.Ok) (hp : ∃ p, p ≤ 7 ∧ fs.csize = 2 ^ p) (dp : Dir) (i : Nat)
    (hd : AtItem fs cl L S n dp i) (stretch : Bool) :
    (i + 1 < 16 * n → i + 1 < 65536 → ∃ fs' dp', dirNext env rt fs dp stretch = some (fs', dp', .ok) ∧ Seen fs fs' ∧ AtItem fs' cl L S n dp' (i + 1)) ∧
    (16 * n ≤ i + 1 ∨ 65536 ≤ i + 1 → (65536 ≤ i + 1 ∨ L = [] ∨ stretch = false) → ∃ fs' dp', dirNext env rt fs dp stretch = some (fs', dp', .noFile) ∧ Seen fs fs') := by
  have hl := hok.layout
  have hcs := hl.clus
  obtain ⟨p, hp7, hpe⟩ := hp
  have hi := hd.inside
  obtain ⟨s1, s2, _, _⟩ := h.sector hl (i := i / 16) (by omega)
  unfold dirNext
  dsimp only
  rw [hd.index, hd.sect]
  refine ⟨fun h1 h2 => ?_, fun h1 h2 => ?_⟩
  · rw [if_neg (by omega)]
    by_cases h16 : (i + 1) % 16 = 0
    · rw [if_pos h16]
      have e16 : (i + 1) / 16 = i / 16 + 1 := by omega
      obtain ⟨t1, t2, _, _⟩ := h.sector hl (i := i / 16 + 1) (by omega)
      cases h with
      | static g1 g2 g3 g4 g5 =>
        dsimp only at t1 t2 s1 s2 ⊢
        rw [if_pos (by rw [hd.clust]; rfl), if_neg (by omega)]
        refine ⟨fs, _, rfl, Seen.refl hok, ⟨Nat.mod_eq_of_lt h2, hd.sclust, by rw [hd.clust]; rfl, ?_, rfl, h1, h2⟩⟩
        dsimp only
        rw [u32_of (by omega), e16]
        omega
      | chain g hc =>
        have hk : i / 16 / fs.csize < L.length := (Nat.div_lt_iff_lt_mul hcs).mpr (by omega)
        have hm := chain_at hc _ hk
        rw [if_neg (by rw [hd.clust]; omega), and_mask _ _ p hpe]
        by_cases hz : (i + 1) / 16 % fs.csize = 0
        · rw [if_pos hz, hd.clust]
          have ek : (i + 1) / 16 / fs.csize = i / 16 / fs.csize + 1 := by
            rw [e16, Nat.succ_div, if_pos (by rw [← e16]; exact Nat.dvd_of_mod_eq_zero hz)]
          have hk1 : i / 16 / fs.csize + 1 < L.length := by
            rw [← ek]
            exact (Nat.div_lt_iff_lt_mul hcs).mpr (by omega)
          have hm1 := chain_at hc _ hk1
          obtain ⟨f, q1, q2⟩ := get_seen hq fs hok _ hm.1 hm.2.1
          rw [q1]
          dsimp only
          rw [hm.2.2.1 hk1]
          have hent := Fs.ents_lt hok
          rw [if_neg (by omega), if_neg (by omega), if_neg (by rw [q2.shape.2.2.2.1]; omega)]
          refine ⟨f, _, rfl, q2, ⟨Nat.mod_eq_of_lt h2, hd.sclust, by rw [q2.shape.2.1, ek], ?_, rfl, h1, h2⟩⟩
          dsimp only
          rw [(clust2sect_eq q2.ok.layout hm1.1 (by rw [q2.shape.2.2.2.1]; exact hm1.2.1)).1, ← q2.shape.sec L]
          unfold Fs.sec
          rw [q2.shape.2.1, hz, ek]
          rfl
        · rw [if_neg hz]
          rw [e16] at hz
          obtain ⟨e1, e2⟩ := div_step hcs hz
          refine ⟨fs, _, rfl, Seen.refl hok, ⟨Nat.mod_eq_of_lt h2, hd.sclust, ?_, ?_, rfl, h1, h2⟩⟩
          · dsimp only
            rw [hd.clust, e16, e2]
          · dsimp only
            rw [e16, sec_add e1, u32_of]
            rw [← sec_add e1]
            exact t1
    · rw [if_neg h16]
      have e16 : (i + 1) / 16 = i / 16 := by omega
      exact ⟨fs, _, rfl, Seen.refl hok, ⟨Nat.mod_eq_of_lt h2, hd.sclust, by rw [hd.clust, e16], by dsimp only; rw [e16], rfl, h1, h2⟩⟩
  · by_cases hw : 65536 ≤ i + 1
    · rw [if_pos (Or.inl (by omega))]
      exact ⟨fs, dp, rfl, Seen.refl hok⟩
    · have hn : i + 1 = 16 * n := by omega
      rw [if_neg (by omega), if_pos (by omega)]
      cases h with
      | static g1 g2 g3 g4 g5 =>
        dsimp only
        rw [if_pos (by rw [hd.clust]; rfl), if_pos (by omega)]
        exact ⟨fs, _, rfl, Seen.refl hok⟩
      | chain g hc =>
        have hk : i / 16 / fs.csize < L.length := (Nat.div_lt_iff_lt_mul hcs).mpr (by omega)
        have hm := chain_at hc _ hk
        have e16 : (i + 1) / 16 = L.length * fs.csize := by omega
        rw [if_neg (by rw [hd.clust]; omega), and_mask _ _ p hpe, if_pos (by rw [e16]; exact Nat.mul_mod_left ..), hd.clust]
        have ek : i / 16 / fs.csize + 1 = L.length := by
          have e : i / 16 + 1 = L.length * fs.csize := by omega
          rw [← Nat.mul_div_cancel L.length hcs, ← e, Nat.succ_div, if_pos (by rw [e]; exact Nat.dvd_mul_left ..)]
        obtain ⟨f, q1, q2⟩ := get_seen hq fs hok _ hm.1 hm.2.1
        rw [q1]
        dsimp only
        have hge := hm.2.2.2 ek
        have hlt := fs.entryAt_lt (L.getD (i / 16 / fs.csize) 0)
        have hent := Fs.ents_lt hok
        rw [if_neg (by omega), if_neg (by omega), if_pos (by rw [q2.shape.2.2.2.1]; exact hge)]
        have hs : stretch = false := by
          rcases h2 with x | x | x
          · exact absurd x hw
          · rw [x] at hk
            exact absurd hk (by simp)
          · exact x
        rw [if_pos hs]
        exact ⟨f, _, rfl, q2⟩

/-! ## Finding -/

theorem hit_iff (fn : Nat → BitVec 8) (w : Sector) (o : Nat) (e : Item) (h : ∀ j, j < 32 → e j = w (o + j)) : hit fn w o = true ↔ named fn e := by
  unfold hit named
  rw [Bool.and_eq_true, decide_eq_true_iff, List.all_eq_true, h 11 (by decide)]
  refine and_congr Iff.rfl ⟨fun g j hj => ?_, fun g j hj => ?_⟩
  · rw [h j (by omega)]
    exact beq_iff_eq.mp (g j (List.mem_range.mpr hj))
  · have hj := List.mem_range.mp hj
    rw [← h j (by omega)]
    exact beq_iff_eq.mpr (g j hj)

/-- Visiting the sector of an entry -/
theorem visit {env : Env} (hq : Quiet env) {rt : Root} {fs : Fs} {cl n : Nat} {L : List Nat} {S : Nat → Nat} (h : Area fs rt cl L S n) (hok : fs.Ok) {dp : Dir} {i : Nat} (hd : AtItem fs cl L S n dp i) :
    ∃ fs', fs.move env dp.sect = (fs', true) ∧ fs'.winsect = S (i / 16) ∧ Seen fs fs' ∧ fs'.win = fs'.look (S (i / 16)) ∧ ∀ j, j < 32 → entryOf fs S i j = fs'.win (dp.off + j) := by
  have hi := hd.inside
  obtain ⟨s1, s2, s3, s4⟩ := h.sector hok.layout (i := i / 16) (by omega)
  obtain ⟨f, a, b, c, d⟩ := move_seen hq fs hok _ s1 s3
  rw [hd.sect]
  refine ⟨f, a, b, c, d, fun j hj => ?_⟩
  unfold entryOf
  rw [if_pos hj, d, c.outside _ s3 s4, hd.off]

theorem findLoop_spec {env : Env} (hq : Quiet env) (rt : Root) (fn : Nat → BitVec 8) {cl n : Nat} {L : List Nat} {S : Nat → Nat} : ∀ (k : Nat) (fs : Fs) (dp : Dir) (i : Nat), Area fs rt cl L S n → fs.Ok →
    (∃ p, p ≤ 7 ∧ fs.csize = 2 ^ p) → AtItem fs cl L S n dp i → 65536 < k + i → (∀ j e, j < i → (dirOf fs S n)[j]? = some e → e 0 ≠ 0 ∧ ¬ named fn e) →
    ∃ fs' dp' r, findLoop env rt fn k fs dp = some (fs', dp', r) ∧ Seen fs fs' ∧
      ((r = .ok ∧ ∃ i', AtItem fs' cl L S n dp' i' ∧ FoundAt (dirOf fs S n) fn i') ∨ (r = .noFile ∧ Absent (dirOf fs S n) fn)) := by
  intro k
  induction k with
  | zero => intro fs dp i _ _ _ hd hk; have := hd.inside; omega
  | succ k ih =>
    intro fs dp i ha hok hp hd hk hb
    have hi := hd.inside
    obtain ⟨f, m1, m2, m3, m4, m5⟩ := visit hq ha hok hd
    have hget : (dirOf fs S n)[i]? = some (entryOf fs S i) := by rw [dirOf_get, if_pos hi]
    have h0 : f.win dp.off = entryOf fs S i 0 := (m5 0 (by decide)).symm
    unfold findLoop
    rw [m1]
    dsimp only
    rw [if_neg (by simp), h0]
    by_cases hz : entryOf fs S i 0 = 0
    · rw [if_pos hz]
      refine ⟨f, dp, _, rfl, m3, Or.inr ⟨rfl, fun j e h1 h2 => ?_⟩⟩
      by_cases hj : j < i
      · exact absurd h2 (hb j e hj h1).2
      · exact ⟨i, _, by omega, hget, hz⟩
    · rw [if_neg hz]
      have hh := hit_iff fn f.win dp.off _ m5
      by_cases hn : named fn (entryOf fs S i)
      · rw [if_pos (hh.mpr hn)]
        refine ⟨f, dp, _, rfl, m3, Or.inl ⟨rfl, i, hd.seen m3, ⟨_, hget, hn⟩, fun j hj e he => ?_, fun j hj e he => (hb j e hj he).2⟩⟩
        by_cases hj' : j < i
        · exact (hb j e hj' he).1
        · have : j = i := by omega
          rw [this, hget] at he
          rw [← Option.some.inj he]
          exact hz
      · rw [if_neg (fun x => hn (hh.mp x))]
        obtain ⟨n1, n2⟩ := next_spec hq rt (ha.seen m3) m3.ok (by rw [m3.shape.2.1]; exact hp) dp i (hd.seen m3) false
        by_cases he : i + 1 < 16 * n ∧ i + 1 < 65536
        · obtain ⟨f', dp', r1, r2, r3⟩ := n1 he.1 he.2
          rw [r1]
          dsimp only
          rw [if_pos rfl]
          have hs := m3.trans r2
          have hD := dirOf_seen ha hok.layout hs
          obtain ⟨f2, dp2, r, q1, q2, q3⟩ := ih f' dp' (i + 1) (ha.seen hs) r2.ok (by rw [hs.shape.2.1]; exact hp) r3 (by omega) fun j e hj hg => by
            rw [hD] at hg
            by_cases hj' : j < i
            · exact hb j e hj' hg
            · have : j = i := by omega
              rw [this, hget] at hg
              rw [← Option.some.inj hg]
              exact ⟨hz, hn⟩
          rw [hD] at q3
          exact ⟨f2, dp2, r, q1, hs.trans q2, q3⟩
        · obtain ⟨f', dp', r1, r2⟩ := n2 (by omega) (Or.inr (Or.inr rfl))
          rw [r1]
          dsimp only
          rw [if_neg (by simp)]
          refine ⟨f', dp', _, rfl, m3.trans r2, Or.inr ⟨rfl, fun j e h1 h2 => ?_⟩⟩
          by_cases hj : j < i
          · exact absurd h2 (hb j e hj h1).2
          · rw [dirOf_get] at h1
            by_cases hx : j < 16 * n ∧ j < 65536
            · have : j = i := by omega
              rw [if_pos hx, this] at h1
              rw [← Option.some.inj h1] at h2
              exact absurd h2 hn
            · rw [if_neg hx] at h1
              exact absurd h1 (by simp)

theorem find_spec {env : Env} (hq : Quiet env) (rt : Root) (fn : Nat → BitVec 8) {cl n : Nat} {L : List Nat} {S : Nat → Nat} (fs : Fs) (dp : Dir) (ha : Area fs rt cl L S n) (hok : fs.Ok)
    (hp : ∃ p, p ≤ 7 ∧ fs.csize = 2 ^ p) (hd : dp.sclust = cl) :
    ∃ fs' dp' r, dirFind env rt fn fs dp = some (fs', dp', r) ∧ Seen fs fs' ∧
      ((r = .ok ∧ ∃ i', AtItem fs' cl L S n dp' i' ∧ FoundAt (dirOf fs S n) fn i') ∨ (r = .noFile ∧ Absent (dirOf fs S n) fn)) := by
  have := ha.pos hok.layout
  obtain ⟨f, d, a, b, c⟩ := sdi_spec hq rt ha hok dp hd 0 ⟨by omega, by decide⟩
  unfold dirFind
  rw [a]
  dsimp only
  rw [if_pos rfl]
  have hD := dirOf_seen ha hok.layout b
  obtain ⟨f2, dp2, r, q1, q2, q3⟩ := findLoop_spec hq rt fn 65537 f d 0 (ha.seen b) b.ok (by rw [b.shape.2.1]; exact hp) c (by omega) fun j e hj => absurd hj (Nat.not_lt_zero _)
  rw [hD] at q3
  exact ⟨f2, dp2, r, q1, b.trans q2, q3⟩

/-! ## Changing one sector outside of the tables -/

theorem look_entry {a b : Fs} (l : a.Layout) (h1 : b.ty = a.ty) (h2 : b.fatbase = a.fatbase) (h : ∀ i, i < a.fsize → b.look (a.fatbase + i) = a.look (a.fatbase + i)) (c : Nat) (hc : c < a.nFatent) :
    b.entryAt c = a.entryAt c := by
  unfold Fs.entryAt
  rw [h1]
  refine entry_congr l.table (fun i hi => ?_) hc
  unfold Fs.tab
  rw [h2, h _ (by omega)]

/-- Sector `s0` becomes `w`, nothing else is seen to change. -/
structure Edited (fs fs' : Fs) (s0 : Nat) (w : Sector) : Prop where
  shape : Shape fs fs'
  ok : fs'.Ok
  copies : fs.Copies → fs'.Copies
  at_ : fs'.look s0 = w
  outside : ∀ s, ¬ fs.InCopies s → ¬ fs.InTable s → s ≠ s0 → fs'.look s = fs.look s
  entries : ∀ c, c < fs.nFatent → fs'.entryAt c = fs.entryAt c

theorem edit_window {fs : Fs} (hok : fs.Ok) (ht : ¬ fs.InTable fs.winsect) (w : Sector) : Edited fs { fs with win := w, wflag := true } fs.winsect w := by
  have hne : ∀ i, i < fs.fsize → fs.winsect ≠ fs.fatbase + i := fun i hi e => ht ⟨by omega, by omega⟩
  have hlook : ∀ s, s ≠ fs.winsect → ({ fs with win := w, wflag := true } : Fs).look s = fs.look s := fun s hs => by
    unfold Fs.look
    rw [if_neg hs, if_neg hs]
  refine ⟨⟨rfl, rfl, rfl, rfl, rfl, rfl, rfl⟩, ⟨⟨hok.layout.1, hok.layout.2, hok.layout.3, hok.layout.4, hok.layout.5, hok.layout.6, hok.layout.7⟩, fun x => Bool.noConfusion x, hok.away, hok.small⟩,
    fun hc i hi _ k hk => hc i hi (fun _ => hne i hi) k hk, if_pos rfl, fun s _ _ hs => hlook s hs, look_entry hok.layout rfl rfl fun i hi => hlook _ (hne i hi).symm⟩

theorem Edited.after {a b c : Fs} {s0 : Nat} {w : Sector} (h : Seen a b) (k : Edited b c s0 w) : Edited a c s0 w :=
  ⟨h.shape.trans k.shape, k.ok, fun x => k.copies (h.copies x), k.at_,
    fun s h1 h2 h3 => by rw [k.outside s (by rw [h.shape.inCopies]; exact h1) (by rw [h.shape.inTable]; exact h2) h3, h.outside s h1 h2],
    fun x hx => by rw [k.entries x (by rw [h.shape.2.2.2.1]; exact hx), h.entries x hx]⟩

theorem Area.inj {fs : Fs} {rt : Root} {cl n : Nat} {L : List Nat} {S : Nat → Nat} (h : Area fs rt cl L S n) (hl : fs.Layout) {i j : Nat} (hi : i < n) (hj : j < n) (e : S i = S j) : i = j := by
  cases h with
  | static _ h1 h2 _ _ => dsimp only at e; omega
  | chain _ hc => exact sec_inj hc.nodup (fun c hm => (hc.mem hm).1) hl.clus hi hj e

theorem dirOf_edited {a b : Fs} {rt : Root} {cl n i : Nat} {L : List Nat} {S : Nat → Nat} {w : Sector} (h : Area a rt cl L S n) (hl : a.Layout) (hi : i < 16 * n ∧ i < 65536) (he : Edited a b (S (i / 16)) w)
    (e : Item) (h1 : ∀ j, j < 32 → w (i % 16 * 32 + j) = e j) (h2 : ∀ j, 32 ≤ j → e j = 0) (h3 : ∀ j, ¬ (i % 16 * 32 ≤ j ∧ j < i % 16 * 32 + 32) → w j = a.look (S (i / 16)) j) :
    dirOf b S n = (dirOf a S n).set i e := by
  apply List.ext_getElem?
  intro k
  rw [List.getElem?_set, dirOf_get, dirOf_get]
  by_cases hk : k < 16 * n ∧ k < 65536
  · have hlen : (dirOf a S n).length = min (16 * n) 65536 := by unfold dirOf; rw [List.length_map, List.length_range]
    rw [if_pos hk, if_pos hk, hlen]
    by_cases hik : i = k
    · subst hik
      rw [if_pos rfl, if_pos (by omega)]
      congr 1
      funext j
      unfold entryOf
      by_cases hj : j < 32
      · rw [if_pos hj, he.at_, h1 j hj]
      · rw [if_neg hj, h2 j (by omega)]
    · rw [if_neg hik]
      congr 1
      funext j
      unfold entryOf
      by_cases hj : j < 32
      · rw [if_pos hj, if_pos hj]
        by_cases hs : S (k / 16) = S (i / 16)
        · have := h.inj hl (i := k / 16) (j := i / 16) (by omega) (by omega) hs
          rw [hs, he.at_, h3 _ (by omega)]
        · obtain ⟨_, _, s3, s4⟩ := h.sector hl (i := k / 16) (by omega)
          rw [he.outside _ s3 s4 hs]
      · rw [if_neg hj, if_neg hj]
  · rw [if_neg hk, if_neg hk]
    have hlen : (dirOf a S n).length = min (16 * n) 65536 := by unfold dirOf; rw [List.length_map, List.length_range]
    by_cases hik : i = k
    · exact absurd (hik ▸ hi) hk
    · rw [if_neg hik]

/-! ## Longer directories -/

/-- The table and its copies on the disk agree. -/
def Fs.Agree (fs : Fs) : Prop := ∀ i, i < fs.fsize → ∀ k, k < fs.nFats → fs.disk (fs.fatbase + i + k * fs.fsize) = fs.disk (fs.fatbase + i)

theorem zeroLoop_spec {env : Env} (hq : Quiet env) : ∀ (c : Nat) (fs : Fs), c ≠ 0 → fs.Layout → fs.wflag = false → fs.database ≤ fs.winsect → fs.winsect + c ≤ 4294967296 →
    ∃ D T, zeroLoop env c fs = ({ fs with winsect := u32 (fs.winsect + c), disk := D, t := T }, true) ∧ (∀ s, fs.winsect ≤ s → s < fs.winsect + c → D s = fs.win) ∧
      (∀ s, ¬ fs.InCopies s → ¬ (fs.winsect ≤ s ∧ s < fs.winsect + c) → D s = fs.disk s) ∧ (fs.Agree → ∀ i, i < fs.fsize → ∀ k, k < fs.nFats → D (fs.fatbase + i + k * fs.fsize) = D (fs.fatbase + i)) := by
  intro c
  induction c with
  | zero =>
    intro fs h0
    exact absurd rfl h0
  | succ c ih =>
    intro fs _ hl hw hd he
    have harea := hl.area
    have hm : fs.fsize ≤ fs.nFats * fs.fsize := Nat.le_mul_of_pos_left _ hl.fats
    have hok : ({ fs with wflag := true } : Fs).Ok := ⟨⟨hl.1, hl.2, hl.3, hl.4, hl.5, hl.6, hl.7⟩, fun x => Bool.noConfusion x, fun x => by have := x.2; dsimp only at this; omega, by dsimp only; omega⟩
    obtain ⟨D, T, s1, s2, s3, s4⟩ := Fs.sync_quiet hq _ hok
    unfold zeroLoop
    rw [s1]
    dsimp only at s2 s3 s4 ⊢
    rw [if_pos rfl]
    by_cases hc0 : c = 0
    · subst hc0
      unfold zeroLoop
      refine ⟨D, T, by rw [← hw], fun s h1 h2 => ?_, fun s h1 h2 => s3 s h1 (by omega), fun ha => s4 fun i hi _ k hk => ha i hi k hk⟩
      have : s = fs.winsect := by omega
      rw [this, s2]
    · obtain ⟨D', T', q1, q2, q3, q4⟩ := ih { fs with wflag := false, winsect := u32 (fs.winsect + 1), disk := D, t := T } hc0 ⟨hl.1, hl.2, hl.3, hl.4, hl.5, hl.6, hl.7⟩ rfl
        (by dsimp only; rw [u32_of (by omega)]; omega) (by dsimp only; rw [u32_of (by omega)]; omega)
      rw [q1]
      dsimp only at q2 q3 q4 ⊢
      rw [u32_of (by omega : fs.winsect + 1 < 4294967296)] at q2 q3
      rw [u32_of (by omega : fs.winsect + 1 < 4294967296)]
      refine ⟨D', T', ?_, fun s h1 h2 => ?_, fun s h1 h2 => ?_, fun ha => q4 ?_⟩
      · rw [← hw, Nat.add_right_comm fs.winsect 1 c, Nat.add_assoc]
      · by_cases hs : s = fs.winsect
        · rw [q3 s (by rw [hs]; exact hok.away) (by omega), hs, s2]
        · exact q2 s (by omega) (by omega)
      · rw [q3 s h1 (by omega), s3 s h1 (by omega)]
      · exact s4 fun i hi _ k hk => ha i hi k hk

/-- Cluster `ncl` is new after cluster `x`, filled with zeros; nothing else is seen to change. -/
structure Grown (fs fs' : Fs) (x ncl : Nat) : Prop where
  shape : Shape fs fs'
  ok : fs'.Ok
  copies : fs.Copies → fs'.Copies
  zero : ∀ k, k < fs.csize → fs'.look (fs.first ncl + k) = fun _ => 0
  outside : ∀ s, ¬ fs.InCopies s → ¬ fs.InTable s → (∀ k, k < fs.csize → s ≠ fs.first ncl + k) → fs'.look s = fs.look s
  entries : ∀ c, c < fs.nFatent → fs'.entryAt c = if c = x then ncl else if c = ncl then lastMark fs.ty else fs.entryAt c

theorem Shape.first {a b : Fs} (h : Shape a b) (c : Nat) : b.first c = a.first c := by
  obtain ⟨_, h2, _, _, _, _, h7⟩ := h
  unfold Fs.first
  rw [h2, h7]

theorem Grown.after {a b c : Fs} {x ncl : Nat} (h : Seen a b) (k : Grown b c x ncl) : Grown a c x ncl := by
  refine ⟨h.shape.trans k.shape, k.ok, fun x => k.copies (h.copies x), fun j hj => ?_, fun s h1 h2 h3 => ?_, fun y hy => ?_⟩
  · rw [← h.shape.first]
    exact k.zero j (by rw [h.shape.2.1]; exact hj)
  · rw [k.outside s (by rw [h.shape.inCopies]; exact h1) (by rw [h.shape.inTable]; exact h2) (fun j hj => by rw [h.shape.first]; exact h3 j (by rw [h.shape.2.1] at hj; exact hj)), h.outside s h1 h2]
  · rw [k.entries y (by rw [h.shape.2.2.2.1]; exact hy), h.shape.1, h.entries y hy]

theorem files_seen {a b : Fs} (h : Seen a b) {F : List (List Nat)} (hF : Files a.entryAt a.nFatent F) : Files b.entryAt b.nFatent F := by
  rw [h.shape.2.2.2.1]
  refine ⟨fun L hL => ?_, hF.apart, fun c h1 h2 h3 => hF.used c h1 h2 (by rw [← h.entries c h2]; exact h3)⟩
  obtain ⟨c, hc⟩ := hF.chains L hL
  exact ⟨c, hc.congr fun x hx => h.entries x (hc.mem hx).2.1⟩

theorem stretch_spec {env : Env} (hq : Quiet env) (fs : Fs) (h : fs.Ok) (A B : List (List Nat)) (L : List Nat) (x : Nat) (hF : Files fs.entryAt fs.nFatent (A ++ (L ++ [x]) :: B)) :
    match (Spec.order fs.nFatent x).find? (fun c => decide (c ∉ (A ++ (L ++ [x]) :: B).flatten)) with
    | none => ∃ fs', stretchDir env fs x = some (fs', .inl .denied) ∧ Seen fs fs'
    | some ncl => ∃ fs', stretchDir env fs x = some (fs', .inr ncl) ∧ Grown fs fs' x ncl ∧ Files fs'.entryAt fs'.nFatent (A ++ (L ++ [x] ++ [ncl]) :: B) := by
  have key := create_extend hq fs h A B L x hF
  cases hf : (Spec.order fs.nFatent x).find? (fun c => decide (c ∉ (A ++ (L ++ [x]) :: B).flatten)) with
  | none =>
    rw [hf] at key
    obtain ⟨f, k1, k2, _⟩ := key
    refine ⟨f, ?_, k2.seen⟩
    unfold stretchDir
    rw [k1]
    dsimp only
    rw [if_pos rfl]
  | some ncl =>
    rw [hf] at key
    obtain ⟨f, k1, k2, k3, _⟩ := key
    have hent := Fs.ents_lt h
    obtain ⟨c0, hc0⟩ := k3.chains (L ++ [x] ++ [ncl]) (by simp)
    obtain ⟨n1, n2, n3⟩ := hc0.last_val
    rw [k2.nFatent] at n3
    obtain ⟨D, T, s1, s2, s3, s4⟩ := f.sync_quiet hq k2.ok
    have hl := k2.ok.layout
    have hcs := hl.clus
    obtain ⟨b1, b2⟩ := first_bounds hl n2 (by rw [k2.nFatent]; exact n3)
    have hl1 : ({ f with wflag := false, disk := D, t := T } : Fs).Layout := ⟨hl.1, hl.2, hl.3, hl.4, hl.5, hl.6, hl.7⟩
    have hcl := (clust2sect_eq hl1 n2 (by show ncl < f.nFatent; rw [k2.nFatent]; exact n3)).1
    have hcl' : ({ f with wflag := false, disk := D, t := T } : Fs).clust2sect ncl = f.first ncl := hcl
    obtain ⟨D', T', q1, q2, q3, q4⟩ := zeroLoop_spec hq f.csize { f with wflag := false, disk := D, t := T, win := fun _ => 0, winsect := f.first ncl } (by omega) ⟨hl.1, hl.2, hl.3, hl.4, hl.5, hl.6, hl.7⟩ rfl b1 b2
    unfold stretchDir
    rw [k1]
    dsimp only
    rw [if_neg (by omega), if_neg (by omega), if_neg (by omega), s1]
    dsimp only
    rw [if_neg (by simp), hcl', q1]
    dsimp only
    rw [if_neg (by simp)]
    have hws : sub32 (u32 (f.first ncl + f.csize)) f.csize = f.first ncl := by
      unfold sub32 u32
      omega
    rw [hws]
    dsimp only at q2 q3 q4
    have harea := hl.area
    have hm : f.fsize ≤ f.nFats * f.fsize := Nat.le_mul_of_pos_left _ hl.fats
    have hlook : ∀ s, ¬ f.InCopies s → (∀ k, k < f.csize → s ≠ f.first ncl + k) →
        ({ f with wflag := false, winsect := f.first ncl, win := fun _ => 0, disk := D', t := T' } : Fs).look s = f.look s := fun s h1 h2 => by
      have u1 : ¬ (f.first ncl ≤ s ∧ s < f.first ncl + f.csize) := fun x => h2 (s - f.first ncl) (by omega) (by omega)
      unfold Fs.look
      dsimp only
      rw [if_neg (by omega), q3 s h1 u1]
      by_cases hs : s = f.winsect
      · rw [if_pos hs, hs, s2]
      · rw [if_neg hs, s3 s h1 hs]
    have hent2 : ∀ c, c < f.nFatent → ({ f with wflag := false, winsect := f.first ncl, win := fun _ => 0, disk := D', t := T' } : Fs).entryAt c = f.entryAt c :=
      look_entry hl rfl rfl fun i hi => hlook _ (fun x => by have := x.1; omega) fun k hk => by omega
    have hsh : Shape fs f := ⟨k2.ty, k2.csize, k2.nFats, k2.nFatent, k2.fsize, k2.fatbase, k2.database⟩
    refine ⟨_, rfl, ⟨hsh, ⟨⟨hl.1, hl.2, hl.3, hl.4, hl.5, hl.6, hl.7⟩, fun _ => ?_, fun x => ?_, ?_⟩, fun hc => ?_, fun k hk => ?_, fun s h1 h2 h3 => ?_, fun c hc => ?_⟩, ?_⟩
    · exact (q2 _ (Nat.le_refl _) (by omega)).symm
    · have := x.2
      dsimp only at this
      omega
    · show f.first ncl < 4294967296
      omega
    · intro i hi _ k hk
      exact q4 (s4 (k2.copies hc)) i hi k hk
    · rw [← hsh.first]
      unfold Fs.look
      dsimp only
      by_cases hk0 : f.first ncl + k = f.first ncl
      · rw [if_pos hk0]
      · rw [if_neg hk0]
        exact q2 _ (by omega) (by rw [k2.csize]; omega)
    · rw [hlook s (by rw [hsh.inCopies]; exact h1) (fun k hk => by rw [hsh.first]; exact h3 k (by rw [← k2.csize]; exact hk)), k2.outside s h1 h2]
    · rw [hent2 c (by rw [k2.nFatent]; exact hc), k2.entries c hc]
    · refine ⟨fun M hM => ?_, k3.apart, fun c h1 h2 h3 => k3.used c h1 h2 (by rw [← hent2 c h2]; exact h3)⟩
      obtain ⟨c, hc⟩ := k3.chains M hM
      exact ⟨c, hc.congr fun y hy => hent2 y (hc.mem hy).2.1⟩

theorem Grown.before {a b c : Fs} {x ncl : Nat} (h : Grown a b x ncl) (h2 : 2 ≤ ncl) (hn : ncl < a.nFatent) (l : a.Layout) (k : Seen b c) : Grown a c x ncl := by
  have hb := first_bounds l h2 hn
  have harea := l.area
  have hm : a.fsize ≤ a.nFats * a.fsize := Nat.le_mul_of_pos_left _ l.fats
  refine ⟨h.shape.trans k.shape, k.ok, fun x => k.copies (h.copies x), fun j hj => ?_, fun s h1 h2 h3 => ?_, fun y hy => ?_⟩
  · rw [k.outside _ (fun x => ?_) (fun x => ?_), h.zero j hj]
    · rw [h.shape.inCopies] at x
      have := x.2
      omega
    · rw [h.shape.inTable] at x
      have := x.2
      omega
  · rw [k.outside s (by rw [h.shape.inCopies]; exact h1) (by rw [h.shape.inTable]; exact h2), h.outside s h1 h2 h3]
  · rw [k.entries y (by rw [h.shape.2.2.2.1]; exact hy), h.entries y hy]

theorem last_getD (L : List Nat) (x : Nat) : (L ++ [x]).getD L.length 0 = x := by
  rw [List.getD_eq_getElem?_getD, List.getElem?_append_right (Nat.le_refl _), Nat.sub_self]
  rfl

theorem next_stretch {env : Env} (hq : Quiet env) (rt : Root) {fs : Fs} {cl c x : Nat} {L : List Nat} (A B : List (List Nat)) (hF : Files fs.entryAt fs.nFatent (A ++ (L ++ [x]) :: B))
    (hc : Chain fs.entryAt fs.nFatent c (L ++ [x])) (hok : fs.Ok) (hp : ∃ p, p ≤ 7 ∧ fs.csize = 2 ^ p) (dp : Dir) (i : Nat)
    (hd : AtItem fs cl (L ++ [x]) (fs.sec (L ++ [x])) ((L ++ [x]).length * fs.csize) dp i) (hi1 : i + 1 = 16 * ((L ++ [x]).length * fs.csize)) (hi2 : i + 1 < 65536)
    (hs0 : fs.sec (L ++ [x]) (i / 16) ≠ 0) :
    ((∀ c, 2 ≤ c → c < fs.nFatent → fs.entryAt c ≠ 0) ∧ ∃ fs' dp', dirNext env rt fs dp true = some (fs', dp', .denied) ∧ Seen fs fs') ∨
    ∃ fs' dp' ncl, 2 ≤ ncl ∧ ncl < fs.nFatent ∧ fs.entryAt ncl = 0 ∧ dirNext env rt fs dp true = some (fs', dp', .ok) ∧ Grown fs fs' x ncl ∧ Files fs'.entryAt fs'.nFatent (A ++ (L ++ [x] ++ [ncl]) :: B) ∧
      AtItem fs' cl (L ++ [x] ++ [ncl]) (fs'.sec (L ++ [x] ++ [ncl])) ((L ++ [x] ++ [ncl]).length * fs'.csize) dp' (i + 1) := by
  have hl := hok.layout
  have hcs := hl.clus
  obtain ⟨p, hp7, hpe⟩ := hp
  have e16 : (i + 1) / 16 = (L ++ [x]).length * fs.csize := by omega
  have ek : i / 16 / fs.csize + 1 = (L ++ [x]).length := by
    have e : i / 16 + 1 = (L ++ [x]).length * fs.csize := by omega
    rw [← Nat.mul_div_cancel (L ++ [x]).length hcs, ← e, Nat.succ_div, if_pos (by rw [e]; exact Nat.dvd_mul_left ..)]
  have ek' : i / 16 / fs.csize = L.length := by
    rw [List.length_append, List.length_singleton] at ek
    omega
  obtain ⟨hge, hx2, hxn⟩ := hc.last_val
  have hdc : dp.clust = x := by rw [hd.clust, ek', last_getD]
  obtain ⟨f, q1, q2⟩ := get_seen hq fs hok x hx2 hxn
  have hlt := fs.entryAt_lt x
  have hent := Fs.ents_lt hok
  have key := stretch_spec hq f q2.ok A B L x (files_seen q2 hF)
  unfold dirNext
  dsimp only
  rw [hd.index, hd.sect, hdc, if_neg (by omega), if_pos (by omega), if_neg (by omega), and_mask _ _ p hpe, if_pos (by rw [e16]; exact Nat.mul_mod_left ..), q1]
  dsimp only
  rw [if_neg (by omega), if_neg (by omega), if_pos (by rw [q2.shape.2.2.2.1]; exact hge), if_neg (by simp)]
  have hord : ∀ c, c ∈ Spec.order f.nFatent x ↔ 2 ≤ c ∧ c < f.nFatent := fun c => mem_order (by omega) (by rw [q2.shape.2.2.2.1]; exact hxn)
  cases hf : (Spec.order f.nFatent x).find? (fun c => decide (c ∉ (A ++ (L ++ [x]) :: B).flatten)) with
  | none =>
    rw [hf] at key
    obtain ⟨f', k1, k2⟩ := key
    rw [k1]
    refine Or.inl ⟨fun c h1 h2 h3 => ?_, f', _, rfl, q2.trans k2⟩
    have := List.find?_eq_none.mp hf c ((hord c).mpr ⟨h1, by rw [q2.shape.2.2.2.1]; exact h2⟩)
    rw [decide_eq_true_iff] at this
    exact this ((files_entries hF c h1 h2).2.mp h3)
  | some ncl =>
    rw [hf] at key
    obtain ⟨f', k1, k2, k3⟩ := key
    rw [k1]
    have hm := (hord ncl).mp (List.mem_of_find?_eq_some hf)
    have hg := Grown.after q2 k2
    have hnot : ncl ∉ (A ++ (L ++ [x]) :: B).flatten := by
      have := List.find?_some hf
      exact of_decide_eq_true this
    have hn : ncl < fs.nFatent := by rw [← q2.shape.2.2.2.1]; exact hm.2
    refine Or.inr ⟨f', _, ncl, hm.1, hn, (files_entries hF ncl hm.1 hn).2.mpr hnot, rfl, hg, k3, ?_⟩
    have e3 : (i + 1) / 16 / fs.csize = (L ++ [x]).length := by rw [e16, Nat.mul_div_cancel _ hcs]
    have hlen : (L ++ [x] ++ [ncl]).length = (L ++ [x]).length + 1 := List.length_append
    have hsec : f'.clust2sect ncl = fs.first ncl := by
      rw [(clust2sect_eq k2.ok.layout hm.1 (by rw [k2.shape.2.2.2.1]; exact hm.2)).1, hg.shape.first]
    have hgs : ((L ++ [x] ++ [ncl]).length * fs.csize) = (L ++ [x]).length * fs.csize + fs.csize := by
      rw [hlen]
      exact Nat.succ_mul ..
    refine ⟨Nat.mod_eq_of_lt hi2, hd.sclust, ?_, ?_, rfl, ?_, hi2⟩
    · rw [hg.shape.2.1, e3, last_getD]
    · dsimp only
      rw [hsec, hg.shape.sec]
      unfold Fs.sec
      rw [e3, last_getD, e16, Nat.mul_mod_left]
      rfl
    · rw [hg.shape.2.1, hgs]
      omega

/-! ## A place for a new entry -/

theorem allocLoop_spec {env : Env} (hq : Quiet env) (rt : Root) {cl n : Nat} {L : List Nat} {S : Nat → Nat} (A B : List (List Nat)) : ∀ (k : Nat) (fs : Fs) (dp : Dir) (i : Nat), Area fs rt cl L S n → fs.Ok →
    (∃ p, p ≤ 7 ∧ fs.csize = 2 ^ p) → (L ≠ [] → Files fs.entryAt fs.nFatent (A ++ L :: B)) → AtItem fs cl L S n dp i → 65536 < k + i →
    (∀ j e, j < i → (dirOf fs S n)[j]? = some e → e 0 ≠ 0xE5 ∧ e 0 ≠ 0) →
    ∃ fs' dp' r, allocLoop env rt k fs dp = some (fs', dp', r) ∧
      ((∃ i', FreeAt (dirOf fs S n) i' ∧ r = .ok ∧ Seen fs fs' ∧ AtItem fs' cl L S n dp' i') ∨
      (Full (dirOf fs S n) ∧ (r = .denied ∨ r = .noFile) ∧ Seen fs fs' ∧ (L = [] ∨ 65536 ≤ 16 * n ∨ ∀ c, 2 ≤ c → c < fs.nFatent → fs.entryAt c ≠ 0)) ∨
      (Full (dirOf fs S n) ∧ r = .ok ∧ 16 * n < 65536 ∧ ∃ x ncl, L ≠ [] ∧ L.getD (L.length - 1) 0 = x ∧ 2 ≤ ncl ∧ ncl < fs.nFatent ∧ fs.entryAt ncl = 0 ∧ Grown fs fs' x ncl ∧
        Files fs'.entryAt fs'.nFatent (A ++ (L ++ [ncl]) :: B) ∧ AtItem fs' cl (L ++ [ncl]) (fs'.sec (L ++ [ncl])) ((L ++ [ncl]).length * fs'.csize) dp' (16 * n))) := by
  intro k
  induction k with
  | zero => intro fs dp i _ _ _ _ hd hk; have := hd.inside; omega
  | succ k ih =>
    intro fs dp i ha hok hp hF hd hk hb
    have hi := hd.inside
    obtain ⟨f, m1, m2, m3, m4, m5⟩ := visit hq ha hok hd
    have hget : (dirOf fs S n)[i]? = some (entryOf fs S i) := by rw [dirOf_get, if_pos hi]
    have h0 : f.win dp.off = entryOf fs S i 0 := (m5 0 (by decide)).symm
    unfold allocLoop
    rw [m1]
    dsimp only
    rw [if_neg (by simp), h0]
    by_cases hz : entryOf fs S i 0 = 0xE5 ∨ entryOf fs S i 0 = 0
    · rw [if_pos hz]
      exact ⟨f, dp, _, rfl, Or.inl ⟨i, ⟨⟨_, hget, hz⟩, fun j hj e he => hb j e hj he⟩, rfl, m3, hd.seen m3⟩⟩
    · rw [if_neg hz]
      have hb' : ∀ j e, j < i + 1 → (dirOf fs S n)[j]? = some e → e 0 ≠ 0xE5 ∧ e 0 ≠ 0 := fun j e hj hg => by
        by_cases hj' : j < i
        · exact hb j e hj' hg
        · have : j = i := by omega
          rw [this, hget] at hg
          rw [← Option.some.inj hg]
          exact ⟨fun y => hz (Or.inl y), fun y => hz (Or.inr y)⟩
      obtain ⟨n1, n2⟩ := next_spec hq rt (ha.seen m3) m3.ok (by rw [m3.shape.2.1]; exact hp) dp i (hd.seen m3) true
      by_cases he : i + 1 < 16 * n ∧ i + 1 < 65536
      · obtain ⟨f', dp', r1, r2, r3⟩ := n1 he.1 he.2
        rw [r1]
        dsimp only
        rw [if_pos rfl]
        have hs := m3.trans r2
        have hD := dirOf_seen ha hok.layout hs
        obtain ⟨f2, dp2, r, q1, q2⟩ := ih f' dp' (i + 1) (ha.seen hs) r2.ok (by rw [hs.shape.2.1]; exact hp) (fun y => files_seen hs (hF y)) r3 (by omega) fun j e hj hg => by
          rw [hD] at hg
          exact hb' j e hj hg
        rw [hD] at q2
        refine ⟨f2, dp2, r, q1, ?_⟩
        rcases q2 with ⟨i', w1, w2, w3, w4⟩ | ⟨w1, w2, w3, w4⟩ | ⟨w1, w2, w3, x, ncl, w4, w5, w6, w7, w8, w9, w10, w11⟩
        · exact Or.inl ⟨i', w1, w2, hs.trans w3, w4⟩
        · refine Or.inr (Or.inl ⟨w1, w2, hs.trans w3, w4.imp_right (Or.imp_right fun y c h1 h2 => ?_)⟩)
          rw [← hs.entries c h2]
          exact y c h1 (by rw [hs.shape.2.2.2.1]; exact h2)
        · rw [hs.shape.2.2.2.1] at w7
          exact Or.inr (Or.inr ⟨w1, w2, w3, x, ncl, w4, w5, w6, w7, by rw [← hs.entries ncl w7]; exact w8, Grown.after hs w9, w10, w11⟩)
      · have hfull : Full (dirOf fs S n) := by
          intro e hm
          obtain ⟨j, hj⟩ := List.mem_iff_getElem?.mp hm
          refine hb' j e ?_ hj
          rw [dirOf_get] at hj
          by_cases hx : j < 16 * n ∧ j < 65536
          · omega
          · rw [if_neg hx] at hj
            exact absurd hj (by simp)
        by_cases hend : 65536 ≤ i + 1 ∨ L = []
        · obtain ⟨f', dp', r1, r2⟩ := n2 (by omega) (hend.imp_right Or.inl)
          rw [r1]
          dsimp only
          rw [if_neg (by simp)]
          refine ⟨f', dp', _, rfl, Or.inr (Or.inl ⟨hfull, Or.inr rfl, m3.trans r2, ?_⟩)⟩
          rcases hend with y | y
          · exact Or.inr (Or.inl (by omega))
          · exact Or.inl y
        · have hL : L ≠ [] := fun y => hend (Or.inr y)
          cases ha with
          | static g1 g2 g3 g4 g5 => exact absurd rfl hL
          | chain g hc =>
            rename_i c1
            obtain ⟨s1, s2, _, _⟩ := (Area.chain (rt := rt) g hc).sector hok.layout (i := i / 16) (by omega)
            obtain ⟨L0, x, rfl⟩ : ∃ L0 x, L = L0 ++ [x] := ⟨L.dropLast, L.getLast hL, (List.dropLast_append_getLast hL).symm⟩
            have hsec : fs.sec (L0 ++ [x]) = f.sec (L0 ++ [x]) := funext fun j => (m3.shape.sec _ j).symm
            have hd2 := hd.seen m3
            have hF2 := files_seen m3 (hF hL)
            have hc2 : Chain f.entryAt f.nFatent c1 (L0 ++ [x]) := by
              rw [m3.shape.2.2.2.1]
              exact hc.congr fun y hy => m3.entries y (hc.mem hy).2.1
            rw [hsec, ← m3.shape.2.1] at hd2
            rcases next_stretch hq rt A B hF2 hc2 m3.ok (by rw [m3.shape.2.1]; exact hp) dp i hd2 (by rw [m3.shape.2.1]; omega) (by omega) (by rw [← hsec]; exact s2) with ⟨w0, f', dp', w1, w2⟩ | ⟨f', dp', ncl, w1, w2, w3, w4, w5, w6, w7⟩
            · rw [w1]
              dsimp only
              rw [if_neg (by simp)]
              refine ⟨f', dp', _, rfl, Or.inr (Or.inl ⟨hfull, Or.inl rfl, m3.trans w2, Or.inr (Or.inr fun c h1 h2 => ?_)⟩)⟩
              rw [← m3.entries c h2]
              exact w0 c h1 (by rw [m3.shape.2.2.2.1]; exact h2)
            · rw [w4]
              dsimp only
              rw [if_pos rfl]
              have hi1 : i + 1 = 16 * ((L0 ++ [x]).length * fs.csize) := by omega
              rw [m3.shape.2.2.2.1] at w2
              rw [m3.entries ncl w2] at w3
              have w5 := Grown.after m3 w5
              have hk1 : k ≠ 0 := by omega
              obtain ⟨k, rfl⟩ := Nat.exists_eq_succ_of_ne_zero hk1
              have hc3 : Area f' rt cl (L0 ++ [x] ++ [ncl]) (f'.sec (L0 ++ [x] ++ [ncl])) ((L0 ++ [x] ++ [ncl]).length * f'.csize) := by
                obtain ⟨d, hd'⟩ := w6.chains (L0 ++ [x] ++ [ncl]) (by simp)
                obtain ⟨_, e1⟩ := hc.head
                obtain ⟨_, e2⟩ := hd'.head
                rw [e1, List.cons_append] at e2
                refine .chain (c := d) ?_ hd'
                rw [← (List.cons.inj e2).1, w5.shape.1]
                exact g
              obtain ⟨f2, v1, v2, v3, v4, v5⟩ := visit hq hc3 w5.ok w7
              have hz : entryOf f' (f'.sec (L0 ++ [x] ++ [ncl])) (i + 1) 0 = 0 := by
                unfold entryOf
                rw [if_pos (by decide), hi1, Nat.mul_div_cancel_left _ (by decide), w5.shape.sec]
                unfold Fs.sec
                rw [Nat.mul_div_cancel _ hok.layout.clus, last_getD, Nat.mul_mod_left, w5.zero 0 hok.layout.clus]
              unfold allocLoop
              rw [v1]
              dsimp only
              rw [if_neg (by simp), if_pos (Or.inr (by rw [← hz, v5 0 (by decide)]; rfl))]
              refine ⟨f2, dp', _, rfl, Or.inr (Or.inr ⟨hfull, rfl, by omega, x, ncl, hL, ?_, w1, w2, w3, w5.before w1 w2 hok.layout v3, files_seen v3 w6, ?_⟩)⟩
              · rw [List.length_append, List.length_singleton, Nat.add_sub_cancel, last_getD]
              · have w8 := w7.seen v3
                have : f'.sec (L0 ++ [x] ++ [ncl]) = f2.sec (L0 ++ [x] ++ [ncl]) := funext fun j => (v3.shape.sec _ j).symm
                rw [this, hi1, ← v3.shape.2.1] at w8
                exact w8

end Verif.Fat
