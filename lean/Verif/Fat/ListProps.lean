import Verif.Fat.ListModel
import Verif.Fat.ListSpec
import Verif.Fat.UnlinkProps

/-!
# FatFs: listing directories — properties
-/

namespace Verif.Fat

open Spec (Ty Item named FoundAt Absent alike proper listed NextAt NoneFrom isDir Text Origin Trail Walks Outcome Resolves nameOf Name83 stored shown listing blank le2 le4)

/-! ## Listings -/

theorem listing_none (T : List Item) (h : ∀ (j : Nat) (e : Item), T[j]? = some e → listed e → ∃ (k : Nat) (e' : Item), k ≤ j ∧ T[k]? = some e' ∧ e' 0 = 0) : listing T = [] := by
  induction T with
  | nil => rfl
  | cons a T ih =>
    unfold listing
    by_cases ha : a 0 = 0
    · rw [List.takeWhile_cons_of_neg (by simpa using ha)]
      rfl
    · rw [List.takeWhile_cons_of_pos (by simpa using ha), List.filter_cons_of_neg]
      · refine ih fun j e h1 h2 => ?_
        obtain ⟨k, e', k1, k2, k3⟩ := h (j + 1) e h1 h2
        cases k with
        | zero =>
          rw [List.getElem?_cons_zero] at k2
          rw [← Option.some.inj k2] at k3
          exact absurd k3 ha
        | succ k => exact ⟨k, e', by omega, k2, k3⟩
      · rw [decide_eq_true_iff]
        intro hl
        obtain ⟨k, e', k1, k2, k3⟩ := h 0 a rfl hl
        obtain rfl : k = 0 := by omega
        rw [List.getElem?_cons_zero] at k2
        rw [← Option.some.inj k2] at k3
        exact ha k3

theorem listing_next : ∀ (m : Nat) (T : List Item) (e : Item), T[m]? = some e → listed e → (∀ j, j ≤ m → ∀ e, T[j]? = some e → e 0 ≠ 0) → (∀ j, j < m → ∀ e, T[j]? = some e → ¬ listed e) →
    listing T = e :: listing (T.drop (m + 1)) := by
  intro m
  induction m with
  | zero =>
    intro T e h1 h2 h3 _
    cases T with
    | nil => cases h1
    | cons a T =>
      rw [List.getElem?_cons_zero] at h1
      obtain rfl := Option.some.inj h1
      have ha := h3 0 (Nat.le_refl _) a rfl
      unfold listing
      rw [List.takeWhile_cons_of_pos (by simpa using ha), List.filter_cons_of_pos (by simpa using h2)]
      rfl
  | succ m ih =>
    intro T e h1 h2 h3 h4
    cases T with
    | nil => cases h1
    | cons a T =>
      have ha := h3 0 (by omega) a rfl
      have hn := h4 0 (by omega) a rfl
      have := ih T e h1 h2 (fun j hj => h3 (j + 1) (by omega)) fun j hj => h4 (j + 1) (by omega)
      unfold listing at this ⊢
      rw [List.takeWhile_cons_of_pos (by simpa using ha), List.filter_cons_of_neg (by simpa using hn), this]
      rfl

theorem listing_from_none {D : List Item} {i : Nat} (h : NoneFrom D i) : listing (D.drop i) = [] := by
  refine listing_none _ fun j e h1 h2 => ?_
  rw [List.getElem?_drop] at h1
  obtain ⟨k, e', a, b, c, d⟩ := h (i + j) e (by omega) h1 h2
  refine ⟨k - i, e', by omega, ?_, d⟩
  rw [List.getElem?_drop, show i + (k - i) = k by omega]
  exact c

theorem listing_from_next {D : List Item} {i i' : Nat} (h : NextAt D i i') : ∃ e, D[i']? = some e ∧ listing (D.drop i) = e :: listing (D.drop (i' + 1)) := by
  obtain ⟨e, h1, h2⟩ := h.hit
  have ha := h.after
  have := listing_next (i' - i) (D.drop i) e (by rw [List.getElem?_drop, show i + (i' - i) = i' by omega]; exact h1) h2
    (fun j hj e he => by rw [List.getElem?_drop] at he; exact h.before (i + j) (by omega) (by omega) e he)
    (fun j hj e he => by rw [List.getElem?_drop] at he; exact h.first (i + j) (by omega) (by omega) e he)
  rw [List.drop_drop, show i + (i' - i + 1) = i' + 1 by omega] at this
  exact ⟨e, h1, this⟩

/-! ## Reading the entries one after the other -/

/-- The object of a directory is before entry `i`, or at the end, which is not after a file. -/
inductive Cursor (fs : Fs) (cl : Nat) (L : List Nat) (S : Nat → Nat) (n : Nat) (dp : Dir) (i : Nat) : Prop
  | here : AtItem fs cl L S n dp i → Cursor fs cl L S n dp i
  | done : dp.sect = 0 → NoneFrom (dirOf fs S n) i → Cursor fs cl L S n dp i

/-- What is told about an entry -/
structure Tells (e : Item) (x : Info) : Prop where
  name : x.name = showName e
  attr : x.attr = e 11
  size : x.size = le4 e 28
  date : x.date = le2 e 24
  time : x.time = le2 e 22

theorem info_tells {fs : Fs} {dp : Dir} {e : Item} (old : Info) (hs : dp.sect ≠ 0) (h : ∀ j, j < 32 → fs.win (dp.off + j) = e j) : Tells e (getInfo fs dp old) := by
  unfold getInfo
  rw [if_pos hs]
  refine ⟨showFrom_congr _ _ 11 0 fun j _ hj => h j (by omega), h 11 (by decide), ?_, ?_, ?_⟩
  · dsimp only
    rw [ldDword_eq, h 28 (by decide), show dp.off + 28 + 1 = dp.off + 29 by omega, h 29 (by decide), show dp.off + 28 + 2 = dp.off + 30 by omega, h 30 (by decide),
      show dp.off + 28 + 3 = dp.off + 31 by omega, h 31 (by decide)]
    rfl
  · dsimp only
    rw [ldWord_eq, h 24 (by decide), show dp.off + 24 + 1 = dp.off + 25 by omega, h 25 (by decide)]
    rfl
  · dsimp only
    rw [ldWord_eq, h 22 (by decide), show dp.off + 22 + 1 = dp.off + 23 by omega, h 23 (by decide)]
    rfl

/-- `f_readdir` gives the next file, or an empty name if there is none, and nothing changes. -/
theorem readdir_right {env : Env} (hq : Quiet env) (rt : Root) {cl n : Nat} {L : List Nat} {S : Nat → Nat} (fs : Fs) (dp : Dir) (i : Nat) (ha : Area fs rt cl L S n) (hok : fs.Ok) (hp : ∃ p, p ≤ 7 ∧ fs.csize = 2 ^ p)
    (hd : Cursor fs cl L S n dp i) (old : Info) :
    ∃ fs' dp' x, fReaddir env rt fs dp old = some (fs', dp', x, .ok) ∧ Seen fs fs' ∧
      ((∃ i' e, NextAt (dirOf fs S n) i i' ∧ (dirOf fs S n)[i']? = some e ∧ Tells e x ∧ Cursor fs' cl L S n dp' (i' + 1)) ∨ (NoneFrom (dirOf fs S n) i ∧ x.name = [] ∧ Cursor fs' cl L S n dp' i)) := by
  have stop : ∀ (f : Fs) (d : Dir), d.sect = 0 → dirNext env rt f d false = some (f, d, .noFile) := by
    intro f d hz
    unfold dirNext
    dsimp only
    rw [if_pos (Or.inr hz)]
  unfold fReaddir
  rcases hd with hd | ⟨hz, hN⟩
  · obtain ⟨f, d, r, a, b, c⟩ := read_spec hq rt fs dp i ha hok hp hd
    rw [a]
    rcases c with ⟨rfl, i', c1, c2, c3⟩ | ⟨rfl, c1, c2⟩
    · dsimp only
      have r1 : (if (Fr.ok : Fr) = .noFile then ({ d with sect := 0 } : Dir) else d) = d := if_neg (by decide)
      have r2 : (if (Fr.ok : Fr) = .noFile then Fr.ok else Fr.ok) = Fr.ok := if_neg (by decide)
      rw [r1, r2, if_pos rfl]
      have hi := c1.inside
      obtain ⟨s1, s2, s3, s4⟩ := ha.sector hok.layout (i := i' / 16) (by omega)
      have hget : (dirOf fs S n)[i']? = some (entryOf fs S i') := by rw [dirOf_get, if_pos hi]
      have ht := info_tells old (by rw [c1.sect]; exact s2) c3
      obtain ⟨n1, n2⟩ := next_spec hq rt (ha.seen b) b.ok (by rw [b.shape.2.1]; exact hp) d i' c1 false
      by_cases he : i' + 1 < 16 * n ∧ i' + 1 < 65536
      · obtain ⟨f', d', e1, e2, e3⟩ := n1 he.1 he.2
        rw [e1]
        exact ⟨f', _, _, rfl, b.trans e2, Or.inl ⟨i', _, c2, hget, ht, by rw [if_neg (by decide)]; exact .here e3⟩⟩
      · obtain ⟨f', d', e1, e2⟩ := n2 (by omega) (Or.inr (Or.inr rfl))
        rw [e1]
        have hN : NoneFrom (dirOf f' S n) (i' + 1) := by
          intro j e h1 h2
          rw [dirOf_get, if_neg (by omega)] at h2
          cases h2
        exact ⟨f', _, _, rfl, b.trans e2, Or.inl ⟨i', _, c2, hget, ht, by rw [if_pos rfl]; exact .done rfl hN⟩⟩
    · dsimp only
      rw [if_pos rfl, if_pos rfl, if_pos rfl, stop f { d with sect := 0 } rfl]
      refine ⟨f, _, _, rfl, b, Or.inr ⟨c2, ?_, by rw [if_pos rfl]; exact .done rfl (by rw [dirOf_seen ha hok.layout b]; exact c2)⟩⟩
      unfold getInfo
      rw [if_neg (by simp)]
  · have e1 : dirRead env rt fs dp = some (fs, { dp with sect := 0 }, .noFile) := by
      unfold dirRead itemLoop
      rw [if_pos hz]
      rfl
    rw [e1]
    dsimp only
    rw [if_pos rfl, if_pos rfl, if_pos rfl, stop fs { dp with sect := 0 } rfl]
    refine ⟨fs, _, _, rfl, Seen.refl hok, Or.inr ⟨hN, ?_, by rw [if_pos rfl]; exact .done rfl hN⟩⟩
    unfold getInfo
    rw [if_neg (by simp)]

/-- Names are empty exactly if all their bytes are blanks. -/
theorem show_empty (e : Nat → BitVec 8) : showName e = [] ↔ ∀ j, j < 11 → e j = 0x20 := by
  have key : ∀ k i, showFrom e i k = [] → ∀ j, i ≤ j → j < i + k → e j = 0x20 := by
    intro k
    induction k with
    | zero => intro i _ j _ _; omega
    | succ k ih =>
      intro i h j h1 h2
      unfold showFrom at h
      split at h
      · rename_i hb
        by_cases hj : j = i
        · rw [hj]; exact hb
        · exact ih (i + 1) h j (by omega) (by omega)
      · simp at h
  exact ⟨fun h j hj => key 11 0 h j (by omega) (by omega), fun h => showFrom_blank e 11 0 fun j _ hj => h j (by omega)⟩

theorem list_from {env : Env} (hq : Quiet env) (rt : Root) {cl n : Nat} {L : List Nat} {S : Nat → Nat} : ∀ (k : Nat) (fs : Fs) (dp : Dir) (i : Nat), Area fs rt cl L S n → fs.Ok → (∃ p, p ≤ 7 ∧ fs.csize = 2 ^ p) →
    Cursor fs cl L S n dp i → (∀ e ∈ listing (dirOf fs S n), ¬ blank e) → ∀ (old : Info), (∃ E, listing (dirOf fs S n) = E ++ listing ((dirOf fs S n).drop i)) → (listing ((dirOf fs S n).drop i)).length < k →
    ∃ fs' xs, listLoop env rt k fs dp old = some (fs', xs, .ok) ∧ Seen fs fs' ∧ List.Forall₂ Tells (listing ((dirOf fs S n).drop i)) xs := by
  intro k
  induction k with
  | zero => intro fs dp i _ _ _ _ _ _ _ h; omega
  | succ k ih =>
    intro fs dp i ha hok hp hc hb old ⟨E, hE⟩ hk
    obtain ⟨f, d, x, a, b, c⟩ := readdir_right hq rt fs dp i ha hok hp hc old
    unfold listLoop
    rw [a]
    dsimp only
    have hD := dirOf_seen ha hok.layout b
    rcases c with ⟨i', e, c1, c2, c3, c4⟩ | ⟨c1, c2, _⟩
    · obtain ⟨e', l1, l2⟩ := listing_from_next c1
      rw [c2] at l1
      obtain rfl := Option.some.inj l1
      have hne : x.name ≠ [] := by
        rw [c3.name]
        intro h
        exact hb e (by rw [hE, l2]; simp) ((show_empty e).mp h)
      rw [if_neg (by simp [hne])]
      rw [l2, List.length_cons] at hk
      obtain ⟨f', xs, q1, q2, q3⟩ := ih f d (i' + 1) (ha.seen b) b.ok (by rw [b.shape.2.1]; exact hp) c4 (by rw [hD]; exact hb) x
        ⟨E ++ [e], by rw [hD, hE, l2]; simp⟩ (by rw [hD]; omega)
      rw [q1]
      rw [hD] at q3
      rw [l2]
      exact ⟨f', _, rfl, b.trans q2, .cons c3 q3⟩
    · rw [if_pos (Or.inr c2), listing_from_none c1]
      exact ⟨f, [], rfl, b, .nil⟩

/-- A directory that is read until an empty name comes gives its files and directories, each once and in their order, if none has a name of blanks only; nothing changes. -/
theorem list_right {env : Env} (hq : Quiet env) (rt : Root) {cl n : Nat} {L : List Nat} {S : Nat → Nat} (fs : Fs) (dp : Dir) (ha : Area fs rt cl L S n) (hok : fs.Ok) (hp : ∃ p, p ≤ 7 ∧ fs.csize = 2 ^ p)
    (hd : AtItem fs cl L S n dp 0) (hb : ∀ e ∈ listing (dirOf fs S n), ¬ blank e) (old : Info) (k : Nat) (hk : (listing (dirOf fs S n)).length < k) :
    ∃ fs' xs, listLoop env rt k fs dp old = some (fs', xs, .ok) ∧ Seen fs fs' ∧ List.Forall₂ Tells (listing (dirOf fs S n)) xs := by
  have := list_from hq rt k fs dp 0 ha hok hp (.here hd) hb old ⟨[], by rw [List.drop_zero]; rfl⟩ (by rw [List.drop_zero]; exact hk)
  rw [List.drop_zero] at this
  exact this

/-- Every name that can be found, and does not begin with a dot, is listed. -/
theorem found_listed {D : List Item} {fn : Nat → BitVec 8} (hp : proper fn) (hdot : fn 0 ≠ 0x2E) {i : Nat} (hf : FoundAt D fn i) : ∃ e ∈ listing D, D[i]? = some e ∧ named fn e := by
  obtain ⟨e, h1, h2⟩ := hf.hit
  have e0 := h2.2 0 (by decide)
  have bits : ∀ a : BitVec 8, a &&& 8 = 0 → a &&& 0x3F ≠ 0x0F ∧ a &&& 0x3F ≠ 0x08 := by decide +kernel
  refine ⟨e, List.mem_filter.mpr ⟨?_, ?_⟩, h1, h2⟩
  · have key : ∀ (i : Nat) (D : List Item), D[i]? = some e → (∀ j, j ≤ i → ∀ e, D[j]? = some e → e 0 ≠ 0) → e ∈ D.takeWhile fun e => e 0 ≠ 0 := by
      intro i
      induction i with
      | zero =>
        intro D h hb
        cases D with
        | nil => cases h
        | cons a D =>
          rw [List.getElem?_cons_zero] at h
          obtain rfl := Option.some.inj h
          rw [List.takeWhile_cons_of_pos (by simpa using hb 0 (Nat.le_refl _) a rfl)]
          exact List.mem_cons_self ..
      | succ i ih =>
        intro D h hb
        cases D with
        | nil => cases h
        | cons a D =>
          rw [List.takeWhile_cons_of_pos (by simpa using hb 0 (by omega) a rfl)]
          exact List.mem_cons_of_mem _ (ih D h fun j hj => hb (j + 1) (by omega))
    exact key i D h1 hf.before
  · rw [decide_eq_true_iff]
    exact ⟨by rw [e0]; exact hp.2, by rw [e0]; exact hdot, bits _ h2.1⟩

/-- Everything listed is a file or directory of the directory. -/
theorem listed_there {D : List Item} {e : Item} (h : e ∈ listing D) : e ∈ D ∧ listed e ∧ e 0 ≠ 0 := by
  obtain ⟨h1, h2⟩ := List.mem_filter.mp h
  refine ⟨List.takeWhile_subset _ h1, by simpa using h2, ?_⟩
  have := List.all_eq_true.mp (List.all_takeWhile (p := fun e : Item => decide (e 0 ≠ 0)) (l := D)) e h1
  simpa using this

/-- What `f_opendir` is to give -/
inductive DirOpened (fs' : Fs) (rt : Root) (ty : Ty) (dir : Nat → List Item) (dp' : Dir) : Outcome → LookRes → Prop
  | sub {cl i : Nat} {e : Item} {L : List Nat} {S : Nat → Nat} {n : Nat} : (dir cl)[i]? = some e → isDir e → Area fs' rt (Spec.start ty e 0) L S n → AtItem fs' (Spec.start ty e 0) L S n dp' 0 →
      dir (Spec.start ty e 0) = dirOf fs' S n → DirOpened fs' rt ty dir dp' (.found cl i) (.fr .ok)
  | file {cl i : Nat} {e : Item} : (dir cl)[i]? = some e → ¬ isDir e → DirOpened fs' rt ty dir dp' (.found cl i) .noPath
  | missing {cl : Nat} : DirOpened fs' rt ty dir dp' (.missing cl) .noPath
  | noPath : DirOpened fs' rt ty dir dp' .noPath .noPath

/-- `f_opendir` opens the directory that the path leads to at its first entry, and refuses everything else. -/
theorem opendir_partial {env : Env} (hq : Quiet env) {rt : Root} {K : Nat → Prop} {dir : Nat → List Item} {fs : Fs} (h : Tree fs rt K dir) (dp : Dir) (old : Nat → BitVec 8) {path : List (BitVec 8)}
    {ns : List (List (BitVec 8))} (ht : Text (fun c => ¬ odd c) path ns) :
    ∃ fs' dp' r o, fOpendir env rt fs dp old path = some (fs', dp', r) ∧ Seen fs fs' ∧ Resolves dir fs.ty 0 ns o ∧ DirOpened fs' rt fs.ty dir dp' o r := by
  obtain ⟨f, d, fn, r, o, a, s, b, c, _⟩ := follow_right_partial hq h dp old ht
  unfold fOpendir
  rw [a]
  dsimp only
  cases o with
  | missing cl =>
    obtain ⟨rfl, _⟩ := c
    exact ⟨f, d, _, _, rfl, s, b, .missing⟩
  | noPath =>
    have c : r = .noPath := c
    subst c
    exact ⟨f, d, _, _, rfl, s, b, .noPath⟩
  | found cl i =>
    obtain ⟨rfl, c⟩ := c
    dsimp only
    rw [if_pos rfl]
    obtain ⟨hcl, hf⟩ := resolves_place h b (text_names ht) h.root cl i rfl
    obtain ⟨e, he, _⟩ := hf.hit
    have hw := c.entry e he
    rw [hw 11 (by decide), start_entry hw, s.shape.1]
    by_cases hd : isDir e
    · rw [if_pos (show e 11 &&& 0x10 ≠ 0 from hd)]
      obtain ⟨L, S, n, p1, p2⟩ := (h.seen s).area _ (h.closed cl hcl _ _ _ (text_proper ht).1 (text_proper ht).2 hf he hd)
      have := p1.pos s.ok.layout
      obtain ⟨f', d', q1, q2, q3⟩ := sdi_spec hq rt p1 s.ok { d with sclust := Spec.start fs.ty e 0 } rfl 0 ⟨by omega, by decide⟩
      rw [q1]
      exact ⟨f', d', _, _, rfl, s.trans q2, b, .sub he hd (p1.seen q2) q3 (by rw [p2, dirOf_seen p1 s.ok.layout q2])⟩
    · rw [if_neg (show ¬ (e 11 &&& 0x10 ≠ 0) from hd)]
      exact ⟨f, d, _, _, rfl, s, b, .file he hd⟩

/-- The path of the root opens the root. -/
theorem opendir_root {env : Env} (hq : Quiet env) {rt : Root} {K : Nat → Prop} {dir : Nat → List Item} {fs : Fs} (h : Tree fs rt K dir) (dp : Dir) (old : Nat → BitVec 8) {path : List (BitVec 8)} (ho : Origin path) :
    ∃ fs' dp', fOpendir env rt fs dp old path = some (fs', dp', .fr .ok) ∧ Seen fs fs' ∧ ∃ L S n, Area fs' rt 0 L S n ∧ AtItem fs' 0 L S n dp' 0 ∧ dir 0 = dirOf fs' S n := by
  obtain ⟨f, d, a, s, L, S, n, p1, p2, p3⟩ := root_path hq h dp old ho
  unfold fOpendir
  rw [a]
  dsimp only
  have := p1.pos s.ok.layout
  obtain ⟨f', d', q1, q2, q3⟩ := sdi_spec hq rt p1 s.ok d p2.sclust 0 ⟨by omega, by decide⟩
  rw [q1]
  exact ⟨f', d', rfl, s.trans q2, L, S, n, p1.seen q2, q3, by rw [p3, dirOf_seen p1 s.ok.layout q2]⟩

/-- What `f_stat` is to give -/
inductive Stated (dir : Nat → List Item) (x : Info) : Outcome → LookRes → Prop
  | found {cl i : Nat} {e : Item} : (dir cl)[i]? = some e → Tells e x → Stated dir x (.found cl i) (.fr .ok)
  | missing {cl : Nat} : Stated dir x (.missing cl) (.fr .noFile)
  | noPath : Stated dir x .noPath .noPath

/-- `f_stat` tells about the entry that the path leads to. -/
theorem stat_partial {env : Env} (hq : Quiet env) {rt : Root} {K : Nat → Prop} {dir : Nat → List Item} {fs : Fs} (h : Tree fs rt K dir) (dp : Dir) (fn : Nat → BitVec 8) (old : Info) {path : List (BitVec 8)}
    {ns : List (List (BitVec 8))} (ht : Text (fun c => ¬ odd c) path ns) :
    ∃ fs' x r o, fStat env rt fs dp fn path old = some (fs', x, r) ∧ Seen fs fs' ∧ Resolves dir fs.ty 0 ns o ∧ Stated dir x o r := by
  obtain ⟨f, d, fn', r, o, a, s, b, c, _⟩ := follow_right_partial hq h dp fn ht
  unfold fStat
  rw [a]
  dsimp only
  cases o with
  | missing cl =>
    obtain ⟨rfl, _⟩ := c
    exact ⟨f, _, _, _, rfl, s, b, .missing⟩
  | noPath =>
    have c : r = .noPath := c
    subst c
    exact ⟨f, _, _, _, rfl, s, b, .noPath⟩
  | found cl i =>
    obtain ⟨rfl, c⟩ := c
    obtain ⟨hcl, hf⟩ := resolves_place h b (text_names ht) h.root cl i rfl
    obtain ⟨e, he, _⟩ := hf.hit
    obtain ⟨L, S, n, p1, p2, p3⟩ := c.place
    have hi := p2.inside
    obtain ⟨_, s2, _, _⟩ := p1.sector s.ok.layout (i := i / 16) (by omega)
    refine ⟨f, _, _, _, rfl, s, b, .found he ?_⟩
    rw [if_pos rfl]
    exact info_tells old (by rw [p2.sect]; exact s2) (c.entry e he)

/-- `f_stat` of the root is refused. -/
theorem stat_root {env : Env} (hq : Quiet env) {rt : Root} {K : Nat → Prop} {dir : Nat → List Item} {fs : Fs} (h : Tree fs rt K dir) (dp : Dir) (fn : Nat → BitVec 8) (old : Info) {path : List (BitVec 8)} (ho : Origin path) :
    ∃ fs', fStat env rt fs dp fn path old = some (fs', old, .invalidName) ∧ Seen fs fs' := by
  obtain ⟨f, d, a, s, _⟩ := root_path hq h dp fn ho
  unfold fStat
  rw [a]
  exact ⟨f, rfl, s⟩

/-- The names told are the names as they are written: of a file created with the name `body.ext` in letters that `create_name` knows. -/
theorem told_name_partial {e : Item} {x : Info} (h : Tells e x) (s body ext : List (BitVec 8)) (hn : Name83 s body ext) (ho : ∀ c ∈ s, ¬ odd c) (he : (List.range 11).map e = stored body ext) : x.name = shown body ext := by
  rw [h.name]
  exact show_name_partial s body ext e hn ho he

/-! ## Examples -/

/-- Opening and listing -/
def ls (fs : Fs) (path : List (BitVec 8)) : Option (LookRes × List (List (BitVec 8) × BitVec 8 × Nat)) :=
  (fOpendir calm root fs ⟨0, 0, 0, 0, 0⟩ (fun _ => 0) path).bind fun x =>
    if x.2.2 = .fr .ok then (listLoop calm root 20 x.1 x.2.1 ⟨[], 0, 0, 0, 0⟩).map fun y => (x.2.2, y.2.1.map fun i => (i.name, i.attr, i.size)) else some (x.2.2, [])

/-- The root and `sub` -/
example : ls home [0x2F] = some (.fr .ok, [([65], 0x20, 0), ([83, 85, 66], 0x10, 0), ([82], 0x21, 0)]) ∧ ls home [0x73, 0x75, 0x62] = some (.fr .ok, [([66], 0x20, 0)]) := ⟨by decide +kernel, by decide +kernel⟩
example : ls home [0x61] = some (.noPath, []) ∧ ls home [0x78] = some (.noPath, []) := ⟨by decide +kernel, by decide +kernel⟩

example : ∃ fs' xs, listLoop calm root 17 home ⟨0, 2, 2, 10, 0⟩ ⟨[], 0, 0, 0, 0⟩ = some (fs', xs, .ok) ∧ Seen home fs' ∧ List.Forall₂ Tells (listing (dirOf home (home.sec [2]) 1)) xs :=
  list_right calm_quiet root home ⟨0, 2, 2, 10, 0⟩ home_sub.area home_ok ⟨0, by decide, by decide⟩ ⟨rfl, rfl, rfl, rfl, rfl, by decide⟩
    (fun e he hb => by
      have : (listing (dirOf home (home.sec [2]) 1)).map (fun e => e 0) = [66] := by decide +kernel
      have hm := List.mem_map_of_mem (f := fun e : Item => e 0) he
      rw [this, List.mem_singleton] at hm
      rw [hb 0 (by decide)] at hm
      exact absurd hm (by decide)) _ _ (by decide +kernel)

/-- A volume whose root has the files `A`, one with a name of blanks and `Z` -/
def veiled : Fs :=
  { empty with disk := fun s i => if s = 5 then (if i < 32 then itemOf [65] 0x20 0 i else if i < 64 then itemOf [] 0x20 0 (i - 32) else if i < 96 then itemOf [90] 0x20 0 (i - 64) else 0) else empty.disk s i }

/-- Finding: a file whose name is all blanks, as `f_open(".", FA_CREATE_NEW)` makes it (`dot_accepted`), ends the listing: `Z` is there and is not listed. -/
theorem blank_hides : ls veiled [0x2F] = some (.fr .ok, [([65], 0x20, 0)]) ∧ (fStat calm root veiled ⟨0, 0, 0, 0, 0⟩ (fun _ => 0) [0x7A] ⟨[], 0, 0, 0, 0⟩).map (·.2) = some (⟨[90], 0x20, 0, 0, 0⟩, .fr .ok) ∧
    (listing (dirOf veiled (fun i => root.dirbase + i) 1)).map (fun e => e 0) = [65, 0x20, 90] := by decide +kernel

/-- The path `.` finds the file of blanks. -/
example : ((followPath calm root veiled ⟨0, 0, 0, 0, 0⟩ (fun _ => 0) [0x2E]).map fun x => (x.2.2.2, x.2.1.index)) = some (.fr .ok, 1) := by decide +kernel

end Verif.Fat
