import Verif.Fat.PathModel
import Verif.Fat.PathSpec
import Verif.Fat.DirProps
import Verif.Fat.NameProps

/-!
# FatFs: paths — properties
-/

namespace Verif.Fat

open Spec (proper Ty Item named FoundAt Absent alike slash Text Trail NoName Origin Walks Name83 stored stops nameOf isDir Outcome Resolves)

/-! ## Where paths lead is unique. -/

theorem found_unique {D : List Item} {fn : Nat → BitVec 8} {i j : Nat} (h : FoundAt D fn i) (k : FoundAt D fn j) : i = j := by
  obtain ⟨e, h1, h2⟩ := h.hit
  obtain ⟨e', k1, k2⟩ := k.hit
  rcases Nat.lt_trichotomy i j with x | x | x
  · exact absurd h2 (k.first i x e h1)
  · exact x
  · exact absurd k2 (h.first j x e' k1)

theorem resolves_unique {dir : Nat → List Item} {ty : Ty} {cl : Nat} {ns : List (List (BitVec 8))} {o o' : Outcome} (h : Resolves dir ty cl ns o) (k : Resolves dir ty cl ns o') : o = o' := by
  induction h with
  | found f =>
    cases k with
    | found g => rw [found_unique f g]
    | missing g => exact absurd g fun a => found_absent f a
  | missing f =>
    cases k with
    | found g => exact (found_absent g f).elim
    | missing g => rfl
  | lost f =>
    cases k with
    | lost g => rfl
    | file g _ _ => exact (found_absent g f).elim
    | down g _ _ _ => exact (found_absent g f).elim
  | file f h1 h2 =>
    cases k with
    | lost g => rfl
    | file g _ _ => rfl
    | down g g1 g2 _ =>
      rw [← found_unique f g, h1] at g1
      rw [← Option.some.inj g1] at g2
      exact absurd g2 h2
  | down f h1 h2 _ ih =>
    cases k with
    | lost g => exact (found_absent f g).elim
    | file g g1 g2 =>
      rw [← found_unique f g, h1] at g1
      rw [← Option.some.inj g1] at g2
      exact absurd h2 g2
    | down g g1 g2 g3 =>
      rw [← found_unique f g, h1] at g1
      rw [← Option.some.inj g1] at g3
      exact ih g3

/-! ## The tree of directories -/

/-- `K` are the directories that can be reached from the root, `dir` their entries. -/
structure Tree (fs : Fs) (rt : Root) (K : Nat → Prop) (dir : Nat → List Item) : Prop where
  ok : fs.Ok
  power : ∃ p, p ≤ 7 ∧ fs.csize = 2 ^ p
  root : K 0
  area : ∀ cl, K cl → ∃ L S n, Area fs rt cl L S n ∧ dir cl = dirOf fs S n
  closed : ∀ cl, K cl → ∀ fn i e, proper fn → fn 0 ≠ 0x2E → FoundAt (dir cl) fn i → (dir cl)[i]? = some e → isDir e → K (Spec.start fs.ty e 0)

theorem Tree.seen {fs fs' : Fs} {rt : Root} {K : Nat → Prop} {dir : Nat → List Item} (h : Tree fs rt K dir) (hs : Seen fs fs') : Tree fs' rt K dir := by
  refine ⟨hs.ok, by rw [hs.shape.2.1]; exact h.power, h.root, fun cl hc => ?_, by rw [hs.shape.1]; exact h.closed⟩
  obtain ⟨L, S, n, a, d⟩ := h.area cl hc
  exact ⟨L, S, n, a.seen hs, by rw [d, dirOf_seen a h.ok.layout hs]⟩

/-- The object of a directory is at entry `i` of the directory `cl`, and this entry is in the window. -/
structure Reached (fs : Fs) (rt : Root) (dir : Nat → List Item) (dp : Dir) (cl i : Nat) : Prop where
  place : ∃ L S n, Area fs rt cl L S n ∧ AtItem fs cl L S n dp i ∧ dir cl = dirOf fs S n
  window : fs.winsect = dp.sect
  entry : ∀ e, (dir cl)[i]? = some e → ∀ j, j < 32 → fs.win (dp.off + j) = e j

theorem findLoop_window {env : Env} {rt : Root} {fn : Nat → BitVec 8} : ∀ (k : Nat) {fs fs' : Fs} {dp dp' : Dir}, findLoop env rt fn k fs dp = some (fs', dp', .ok) →
    ∃ f : Fs, f.move env dp'.sect = (fs', true) := by
  intro k
  induction k with
  | zero => intro fs fs' dp dp' h; cases h
  | succ k ih =>
    intro fs fs' dp dp' h
    unfold findLoop at h
    dsimp only at h
    split at h
    · cases h
    · rename_i hm
      split at h
      · cases h
      · split at h
        · cases h
          exact ⟨fs, Prod.ext rfl (by simpa using hm)⟩
        · split at h
          · cases h
          · split at h
            · exact ih h
            · rename_i hr
              cases h
              exact absurd rfl hr

theorem find_window {env : Env} {rt : Root} {fn : Nat → BitVec 8} {fs fs' : Fs} {dp dp' : Dir} (h : dirFind env rt fn fs dp = some (fs', dp', .ok)) : ∃ f : Fs, f.move env dp'.sect = (fs', true) := by
  unfold dirFind at h
  split at h
  · cases h
  · split at h
    · exact findLoop_window _ h
    · rename_i hr
      cases h
      exact absurd rfl hr

theorem move_winsect {env : Env} {f f' : Fs} {s : Nat} (h : f.move env s = (f', true)) : f'.winsect = s := by
  unfold Fs.move at h
  dsimp only at h
  split at h
  · split at h
    · split at h
      · cases h; rfl
      · cases h
    · cases h
  · rename_i hs
    cases h
    exact (Decidable.of_not_not hs).symm

theorem tree_find {env : Env} (hq : Quiet env) {fs : Fs} {rt : Root} {K : Nat → Prop} {dir : Nat → List Item} (h : Tree fs rt K dir) {cl : Nat} (hk : K cl) (fn : Nat → BitVec 8) (dp : Dir) (hd : dp.sclust = cl) :
    ∃ fs' dp' r, dirFind env rt fn fs dp = some (fs', dp', r) ∧ Seen fs fs' ∧ dp'.sclust = cl ∧
      ((r = .ok ∧ ∃ i, Reached fs' rt dir dp' cl i ∧ FoundAt (dir cl) fn i) ∨ (r = .noFile ∧ Absent (dir cl) fn)) := by
  obtain ⟨L, S, n, a, d⟩ := h.area cl hk
  obtain ⟨fs', dp', r, e, s, c⟩ := find_spec hq rt fn fs dp a h.ok h.power hd
  refine ⟨fs', dp', r, e, s, (find_sclust e).trans hd, ?_⟩
  rw [d]
  rcases c with ⟨rfl, i, c1, c2⟩ | c
  · obtain ⟨f, hf⟩ := find_window e
    have hw := move_winsect hf
    refine Or.inl ⟨rfl, i, ⟨⟨L, S, n, a.seen s, c1, by rw [d, dirOf_seen a h.ok.layout s]⟩, hw, fun e he j hj => ?_⟩, c2⟩
    have hi := c1.inside
    rw [d, ← dirOf_seen a h.ok.layout s, dirOf_get, if_pos hi] at he
    rw [← Option.some.inj he]
    unfold entryOf Fs.look
    rw [if_pos hj, ← c1.sect, hw, if_pos rfl, c1.off]
  · exact Or.inr c

/-! ## One name -/

/-- The names that paths may have are proper names. -/
theorem name_proper {s body ext : List (BitVec 8)} (hn : Name83 s body ext) (ho : ∀ c ∈ s, ¬ odd c) : proper (nameOf (stored body ext)) ∧ nameOf (stored body ext) 0 ≠ 0x2E := by
  obtain ⟨hb, _, hlegal⟩ := hn.body
  cases body with
  | nil => exact absurd rfl hb
  | cons c t =>
    have hc : c ∈ s := by rcases hn.text with ⟨x, _⟩ | x <;> rw [x] <;> simp
    obtain ⟨u1, _, _, u2, u3, _⟩ := upper_legal c (hlegal c (List.mem_cons_self ..)) (ho c hc)
    have e : nameOf (stored (c :: t) ext) 0 = Spec.upper c := rfl
    have dot : ∀ c : BitVec 8, Spec.legal c = true → c ≠ 0x2E := by decide +kernel
    unfold proper
    rw [e]
    exact ⟨⟨u2, u1⟩, dot _ u3⟩

theorem text_names {path : List (BitVec 8)} {ns : List (List (BitVec 8))} (h : Text (fun c => ¬ odd c) path ns) : ∀ n ∈ ns, proper (nameOf n) ∧ nameOf n 0 ≠ 0x2E := by
  induction h with
  | last _ hn hs _ =>
    intro n h
    rw [List.mem_singleton] at h
    rw [h]
    exact name_proper hn hs
  | more _ hn hs _ _ ih =>
    intro n h
    rcases List.mem_cons.mp h with rfl | h
    · exact name_proper hn hs
    · exact ih n h

/-- The names of a path are proper names. -/
theorem text_proper {path : List (BitVec 8)} {ns : List (List (BitVec 8))} (h : Text (fun c => ¬ odd c) path ns) : proper (nameOf (ns.getLastD [])) ∧ nameOf (ns.getLastD []) 0 ≠ 0x2E := by
  induction h with
  | last _ hn hs _ => exact name_proper hn hs
  | more _ _ _ _ hrest ih => cases hrest <;> exact ih

theorem stored_alike {fn : Nat → BitVec 8} {n : List (BitVec 8)} (h : (List.range 11).map fn = n) : alike fn (nameOf n) := by
  intro j hj
  unfold nameOf
  rw [← h, List.getD_eq_getElem?_getD, List.getElem?_map, List.getElem?_range hj]
  rfl

theorem absent_alike {D : List Item} {a b : Nat → BitVec 8} (h : alike a b) (f : Absent D a) : Absent D b :=
  fun i e h1 h2 => f i e h1 (named_alike (fun j hj => (h j hj).symm) h2)

theorem start_entry {ty : Ty} {w : Nat → BitVec 8} {o : Nat} {e : Item} (h : ∀ j, j < 32 → w (o + j) = e j) : ldClust ty w o = Spec.start ty e 0 := by
  rw [ldClust_start]
  unfold Spec.start Spec.le2
  rw [h 26 (by decide), show o + 26 + 1 = o + 27 by omega, h 27 (by decide), h 20 (by decide), show o + 20 + 1 = o + 21 by omega, h 21 (by decide)]

/-- The last name of a path -/
theorem follow_last {env : Env} (hq : Quiet env) {rt : Root} {K : Nat → Prop} {dir : Nat → List Item} (k : Nat) {fs : Fs} (h : Tree fs rt K dir) {cl : Nat} (hk : K cl) (dp : Dir) (hd : dp.sclust = cl)
    (old fn : Nat → BitVec 8) (path rest n : List (BitVec 8)) (hc : createName path = some (fn, true, rest)) (hn : (List.range 11).map fn = n) :
    ∃ fs' dp' r, followLoop env rt (k + 1) fs dp old path = some (fs', dp', fn, r) ∧ Seen fs fs' ∧ dp'.sclust = cl ∧
      ((r = .fr .ok ∧ ∃ i, Reached fs' rt dir dp' cl i ∧ FoundAt (dir cl) (nameOf n) i) ∨ (r = .fr .noFile ∧ Absent (dir cl) (nameOf n))) := by
  obtain ⟨fs', dp', r, e, s, c, d⟩ := tree_find hq h hk fn dp hd
  unfold followLoop
  rw [hc]
  dsimp only
  rw [e]
  dsimp only
  rcases d with ⟨rfl, i, d1, d2⟩ | ⟨rfl, d⟩
  · rw [if_neg (by simp), if_pos rfl]
    exact ⟨fs', dp', _, rfl, s, c, Or.inl ⟨rfl, i, d1, found_alike (stored_alike hn) d2⟩⟩
  · rw [if_pos (by simp), if_neg (by simp)]
    exact ⟨fs', dp', _, rfl, s, c, Or.inr ⟨rfl, absent_alike (stored_alike hn) d⟩⟩

/-- A name before others -/
theorem follow_more {env : Env} (hq : Quiet env) {rt : Root} {K : Nat → Prop} {dir : Nat → List Item} (k : Nat) {fs : Fs} (h : Tree fs rt K dir) {cl : Nat} (hk : K cl) (dp : Dir) (hd : dp.sclust = cl)
    (old fn : Nat → BitVec 8) (path rest n : List (BitVec 8)) (hc : createName path = some (fn, false, rest)) (hn : (List.range 11).map fn = n) (hp : proper (nameOf n) ∧ nameOf n 0 ≠ 0x2E) :
    (∃ fs' dp', followLoop env rt (k + 1) fs dp old path = some (fs', dp', fn, .noPath) ∧ Seen fs fs' ∧
      (Absent (dir cl) (nameOf n) ∨ ∃ i e, FoundAt (dir cl) (nameOf n) i ∧ (dir cl)[i]? = some e ∧ ¬ isDir e)) ∨
    (∃ fs' dp' i e, followLoop env rt (k + 1) fs dp old path = followLoop env rt k fs' dp' fn rest ∧ Seen fs fs' ∧ FoundAt (dir cl) (nameOf n) i ∧ (dir cl)[i]? = some e ∧ isDir e ∧
      dp'.sclust = Spec.start fs.ty e 0 ∧ K (Spec.start fs.ty e 0)) := by
  obtain ⟨fs', dp', r, e, s, c, d⟩ := tree_find hq h hk fn dp hd
  rw [followLoop, hc]
  dsimp only
  rw [e]
  dsimp only
  rcases d with ⟨rfl, i, d1, d2⟩ | ⟨rfl, d⟩
  · rw [if_neg (by simp), if_neg (by simp)]
    have d2 := found_alike (stored_alike hn) d2
    obtain ⟨x, x1, _⟩ := d2.hit
    have hw := d1.entry x x1
    by_cases y : fs'.win (dp'.off + 11) &&& 0x10 = 0
    · rw [if_pos y]
      exact Or.inl ⟨fs', dp', rfl, s, Or.inr ⟨i, x, d2, x1, fun z => z (by rw [← hw 11 (by decide)]; exact y)⟩⟩
    · rw [if_neg y]
      have hx : isDir x := fun z => y (by rw [hw 11 (by decide)]; exact z)
      exact Or.inr ⟨fs', { dp' with sclust := ldClust fs'.ty fs'.win dp'.off }, i, x, rfl, s, d2, x1, hx, by rw [← s.shape.1]; exact start_entry hw, h.closed cl hk _ i x hp.1 hp.2 d2 x1 hx⟩
  · rw [if_pos (by simp), if_pos ⟨rfl, rfl⟩]
    exact Or.inl ⟨fs', dp', rfl, s, Or.inl (absent_alike (stored_alike hn) d)⟩

/-! ## Texts -/

theorem slash_stops {c : BitVec 8} (h : slash c) : stops c = true ∧ ¬ c ≤ 0x20 := by
  rcases h with rfl | rfl <;> decide

theorem name_first {s body ext : List (BitVec 8)} (h : Name83 s body ext) : ∃ c t, s = c :: t ∧ Spec.legal c = true := by
  obtain ⟨x, ⟨b0, _, bl⟩, _⟩ := h
  obtain ⟨a, u, rfl⟩ := List.exists_cons_of_ne_nil b0
  rcases x with ⟨rfl, _⟩ | rfl
  · exact ⟨a, u, rfl, bl a (by simp)⟩
  · exact ⟨a, u ++ 0x2E :: ext, rfl, bl a (by simp)⟩

theorem legal_plain {c : BitVec 8} (h : Spec.legal c = true) : ¬ slash c ∧ ¬ c < 0x20 := by
  have hs := ((legal_iff c).mp h).1
  refine ⟨fun x => ?_, fun x => ?_⟩
  · rw [(slash_stops x).1] at hs
    exact Bool.noConfusion hs
  · rw [(stops_iff c).mpr (Or.inl (by bv_omega))] at hs
    exact Bool.noConfusion hs

/-- A separator at the beginning may be left out; what remains does not begin with a control character. -/
theorem strip_seps {seps s t body ext : List (BitVec 8)} (hp : ∀ c ∈ seps, slash c) (hn : Name83 s body ext) :
    ∃ seps', (∀ c ∈ seps', slash c) ∧ strip (seps ++ s ++ t) = seps' ++ s ++ t ∧ ¬ (seps' ++ s ++ t).headD 0 < 0x20 := by
  obtain ⟨a, u, rfl, hl⟩ := name_first hn
  obtain ⟨l1, l2⟩ := legal_plain hl
  have key : ∀ seps' : List (BitVec 8), (∀ c ∈ seps', slash c) → ¬ (seps' ++ a :: u ++ t).headD 0 < 0x20 := by
    intro q hq
    cases q with
    | nil => exact l2
    | cons c q =>
      have := hq c (by simp)
      show ¬ c < 0x20
      rcases this with rfl | rfl <;> decide
  cases seps with
  | nil => exact ⟨[], fun _ h => absurd h (by simp), by unfold strip; exact if_neg l1, key [] (fun _ h => absurd h (by simp))⟩
  | cons c q => exact ⟨q, fun x hx => hp x (by simp [hx]), by unfold strip; exact if_pos (hp c (by simp)), key q fun x hx => hp x (by simp [hx])⟩

theorem strip_text {P : BitVec 8 → Prop} {path : List (BitVec 8)} {ns : List (List (BitVec 8))} (h : Text P path ns) : Text P (strip path) ns ∧ ¬ (strip path).headD 0 < 0x20 := by
  cases h with
  | last h1 h2 h3 h4 =>
    obtain ⟨q, a, b, c⟩ := strip_seps h1 h2 (t := _)
    rw [b]
    exact ⟨.last a h2 h3 h4, c⟩
  | more h1 h2 h3 h4 h5 =>
    obtain ⟨q, a, b, c⟩ := strip_seps h1 h2 (t := _)
    rw [b]
    exact ⟨.more a h2 h3 h4 h5, c⟩

theorem strip_noname {t : List (BitVec 8)} (h : NoName t) : NoName (strip t) := by
  cases h with
  | @none seps tail h1 h2 =>
    cases seps with
    | cons c q =>
      unfold strip
      rw [List.cons_append]
      dsimp only
      rw [if_pos (show c = 0x2F ∨ c = 0x5C from h1 c (by simp))]
      exact .none (fun x hx => h1 x (by simp [hx])) h2
    | nil =>
      cases tail with
      | nil => exact .none (seps := []) (fun _ h => absurd h (by simp)) h2
      | cons c t =>
        have : ¬ (c = 0x2F ∨ c = 0x5C) := fun x => (slash_stops x).2 (h2 c (by simp))
        unfold strip
        rw [List.nil_append]
        dsimp only
        rw [if_neg this]
        exact .none (seps := []) (fun _ h => absurd h (by simp)) h2
  | @wrong seps s tail h1 h2 h3 h4 h5 =>
    cases seps with
    | cons c q =>
      unfold strip
      rw [List.cons_append, List.cons_append]
      dsimp only
      rw [if_pos (show c = 0x2F ∨ c = 0x5C from h1 c (by simp))]
      exact .wrong (fun x hx => h1 x (by simp [hx])) h2 h3 h4 h5
    | nil =>
      obtain ⟨c, t, rfl⟩ := List.exists_cons_of_ne_nil h2
      have : ¬ (c = 0x2F ∨ c = 0x5C) := fun x => by
        have := h3 c (by simp)
        rw [(slash_stops x).1] at this
        exact Bool.noConfusion this
      unfold strip
      rw [List.nil_append, List.cons_append]
      dsimp only
      rw [if_neg this]
      exact .wrong (seps := []) (s := c :: t) (fun _ h => absurd h (by simp)) h2 h3 h4 h5

theorem strip_trail {P : BitVec 8 → Prop} {path : List (BitVec 8)} {ns : List (List (BitVec 8))} (h : Trail P path ns) : Trail P (strip path) ns := by
  cases h with
  | here h => exact .here (strip_noname h)
  | more h1 h2 h3 h4 h5 =>
    obtain ⟨q, a, b, c⟩ := strip_seps h1 h2 (t := _)
    rw [b]
    exact .more a h2 h3 h4 h5

theorem origin_iff (path : List (BitVec 8)) : Origin path ↔ (strip path).headD 0 < 0x20 := by
  constructor
  · rintro ⟨p, tail, rfl, hp, ht⟩
    have hd : tail.headD 0 < 0x20 := by
      cases tail with
      | nil => decide
      | cons c t => exact ht c (by simp)
    rcases hp with rfl | ⟨c, hc, rfl⟩
    · cases tail with
      | nil => decide
      | cons c t =>
        have h : ¬ (c = 0x2F ∨ c = 0x5C) := fun x => (slash_stops x).2 (by have := ht c (by simp); bv_omega)
        unfold strip
        rw [List.nil_append]
        dsimp only
        rw [if_neg h]
        exact hd
    · unfold strip
      rw [List.singleton_append]
      dsimp only
      rw [if_pos (show c = 0x2F ∨ c = 0x5C from hc)]
      exact hd
  · intro h
    have key : ∀ t : List (BitVec 8), t.headD 0 < 0x20 → ∀ c ∈ t.head?, c < 0x20 := by
      intro t ht c hc
      cases t with
      | nil => exact absurd hc (by simp)
      | cons a t =>
        rw [List.head?_cons, Option.mem_def, Option.some.injEq] at hc
        rw [← hc]
        exact ht
    cases path with
    | nil => exact ⟨[], [], rfl, Or.inl rfl, fun _ h => absurd h (by simp)⟩
    | cons c t =>
      unfold strip at h
      dsimp only at h
      by_cases hc : c = 0x2F ∨ c = 0x5C
      · rw [if_pos hc] at h
        exact ⟨[c], t, rfl, Or.inr ⟨c, hc, rfl⟩, key t h⟩
      · rw [if_neg hc] at h
        exact ⟨[], c :: t, rfl, Or.inl rfl, key _ h⟩

/-! ## The properties -/

/-- What `follow_path` gives for each outcome -/
def Shows (fs : Fs) (rt : Root) (dir : Nat → List Item) (dp : Dir) (r : PathRes) : Outcome → Prop
  | .found cl i => r = .fr .ok ∧ Reached fs rt dir dp cl i
  | .missing cl => r = .fr .noFile ∧ dp.sclust = cl
  | .noPath => r = .noPath

theorem follow_loop {env : Env} (hq : Quiet env) {rt : Root} {K : Nat → Prop} {dir : Nat → List Item} {path : List (BitVec 8)} {ns : List (List (BitVec 8))} (ht : Text (fun c => ¬ odd c) path ns) :
    ∀ (k : Nat) (fs : Fs), Tree fs rt K dir → ∀ (cl : Nat), K cl → ∀ (dp : Dir), dp.sclust = cl → ∀ (old : Nat → BitVec 8), path.length < k →
    ∃ fs' dp' fn r o, followLoop env rt k fs dp old path = some (fs', dp', fn, r) ∧ Seen fs fs' ∧ Resolves dir fs.ty cl ns o ∧ Shows fs' rt dir dp' r o ∧
      (r = .fr .noFile → alike fn (nameOf (ns.getLastD []))) := by
  induction ht with
  | @last seps s tail body ext h1 h2 h3 h4 =>
    intro k fs h cl hk dp hd old hl
    obtain ⟨k, rfl⟩ : ∃ j, k = j + 1 := ⟨k - 1, by omega⟩
    obtain ⟨fn, c1, c2⟩ := create_name_partial seps s tail body ext h1 (fun c hc => (stops_iff c).mpr (Or.inl (h4 c hc))) h2 h3
    have hlast : decide (tail.headD 0 ≤ 0x20) = true := by
      cases tail with
      | nil => decide
      | cons c t => exact decide_eq_true (h4 c (by simp))
    rw [hlast] at c1
    obtain ⟨fs', dp', r, e, s, c, d⟩ := follow_last hq k h hk dp hd old fn _ _ _ c1 c2
    rcases d with ⟨rfl, i, d1, d2⟩ | ⟨rfl, d⟩
    · exact ⟨fs', dp', fn, _, .found cl i, e, s, .found d2, ⟨rfl, d1⟩, fun x => absurd x (by simp)⟩
    · exact ⟨fs', dp', fn, _, .missing cl, e, s, .missing d, ⟨rfl, c⟩, fun _ => stored_alike c2⟩
  | @more seps s rest body ext c ns h1 h2 h3 h4 h5 ih =>
    intro k fs h cl hk dp hd old hl
    obtain ⟨k, rfl⟩ : ∃ j, k = j + 1 := ⟨k - 1, by omega⟩
    obtain ⟨fn, c1, c2⟩ := create_name_partial seps s (c :: rest) body ext h1 (fun x hx => by rw [List.head?_cons, Option.mem_def, Option.some.injEq] at hx; rw [← hx]; exact (slash_stops h4).1) h2 h3
    rw [show decide ((c :: rest).headD 0 ≤ 0x20) = false from decide_eq_false (slash_stops h4).2] at c1
    obtain ⟨m, ns', rfl⟩ : ∃ m ns', ns = m :: ns' := by cases h5 <;> exact ⟨_, _, rfl⟩
    rcases follow_more hq k h hk dp hd old fn _ _ _ c1 c2 (name_proper h2 h3) with ⟨fs', dp', e, s, d⟩ | ⟨fs', dp', i, x, e, s, d1, d2, d3, d4, d5⟩
    · refine ⟨fs', dp', fn, _, .noPath, e, s, ?_, rfl, fun x => absurd x (by simp)⟩
      rcases d with d | ⟨i, x, d1, d2, d3⟩
      · exact .lost d
      · exact .file d1 d2 d3
    · rw [e]
      obtain ⟨f2, dp2, fn2, r, o, q1, q2, q3, q4, q5⟩ := ih k fs' (h.seen s) _ d5 dp' d4 fn (by simp only [List.length_append, List.length_cons] at hl; omega)
      rw [s.shape.1] at q3
      exact ⟨f2, dp2, fn2, r, o, q1, s.trans q2, .down d1 d2 d3 q3, q4, q5⟩

/-- **Paths.** For every path of proper names `follow_path` finds what the names lead to in the tree of directories: the entry, which is then in the window, the directory that has no such entry, or nothing. Nothing is
seen to change. -/
theorem follow_right_partial {env : Env} (hq : Quiet env) {rt : Root} {K : Nat → Prop} {dir : Nat → List Item} {fs : Fs} (h : Tree fs rt K dir) (dp : Dir) (old : Nat → BitVec 8) {path : List (BitVec 8)}
    {ns : List (List (BitVec 8))} (ht : Text (fun c => ¬ odd c) path ns) :
    ∃ fs' dp' fn r o, followPath env rt fs dp old path = some (fs', dp', fn, r) ∧ Seen fs fs' ∧ Resolves dir fs.ty 0 ns o ∧ Shows fs' rt dir dp' r o ∧
      (r = .fr .noFile → alike fn (nameOf (ns.getLastD []))) := by
  obtain ⟨t1, t2⟩ := strip_text ht
  unfold followPath
  dsimp only
  rw [if_neg t2]
  exact follow_loop hq t1 _ fs h 0 h.root _ rfl old (by omega)

theorem noname_refused {t : List (BitVec 8)} (h : NoName t) : createName t = none := by
  cases h with
  | none h1 h2 => exact create_name_empty _ _ h1 h2
  | wrong h1 h2 h3 h4 h5 => exact create_name_refused_partial _ _ _ h1 h3 h2 h4 h5

theorem refused_loop {env : Env} (hq : Quiet env) {rt : Root} {K : Nat → Prop} {dir : Nat → List Item} {path : List (BitVec 8)} {ns : List (List (BitVec 8))} (ht : Trail (fun c => ¬ odd c) path ns) :
    ∀ (k : Nat) (fs : Fs), Tree fs rt K dir → ∀ (cl : Nat), K cl → ∀ (dp : Dir), dp.sclust = cl → ∀ (old : Nat → BitVec 8), path.length < k →
    ∃ fs' dp' fn r, followLoop env rt k fs dp old path = some (fs', dp', fn, r) ∧ Seen fs fs' ∧
      (((∃ cl', Walks dir fs.ty cl ns cl') ∧ r = .invalidName) ∨ ((¬ ∃ cl', Walks dir fs.ty cl ns cl') ∧ r = .noPath)) := by
  induction ht with
  | here hn =>
    intro k fs h cl hk dp hd old hl
    obtain ⟨k, rfl⟩ : ∃ j, k = j + 1 := ⟨k - 1, by omega⟩
    refine ⟨fs, dp, old, _, ?_, Seen.refl h.ok, Or.inl ⟨⟨cl, .stay⟩, rfl⟩⟩
    unfold followLoop
    rw [noname_refused hn]
  | @more seps s rest body ext c ns h1 h2 h3 h4 h5 ih =>
    intro k fs h cl hk dp hd old hl
    obtain ⟨k, rfl⟩ : ∃ j, k = j + 1 := ⟨k - 1, by omega⟩
    obtain ⟨fn, c1, c2⟩ := create_name_partial seps s (c :: rest) body ext h1 (fun x hx => by rw [List.head?_cons, Option.mem_def, Option.some.injEq] at hx; rw [← hx]; exact (slash_stops h4).1) h2 h3
    rw [show decide ((c :: rest).headD 0 ≤ 0x20) = false from decide_eq_false (slash_stops h4).2] at c1
    rcases follow_more hq k h hk dp hd old fn _ _ _ c1 c2 (name_proper h2 h3) with ⟨fs', dp', e, s, d⟩ | ⟨fs', dp', i, x, e, s, d1, d2, d3, d4, d5⟩
    · refine ⟨fs', dp', fn, _, e, s, Or.inr ⟨?_, rfl⟩⟩
      rintro ⟨cl', w⟩
      cases w with
      | down g1 g2 g3 _ =>
        rcases d with d | ⟨i, x, d1, d2, d3⟩
        · exact found_absent g1 d
        · rw [found_unique g1 d1, d2] at g2
          rw [← Option.some.inj g2] at g3
          exact d3 g3
    · rw [e]
      obtain ⟨f2, dp2, fn2, r, q1, q2, q3⟩ := ih k fs' (h.seen s) _ d5 dp' d4 fn (by simp only [List.length_append, List.length_cons] at hl; omega)
      rw [s.shape.1] at q3
      refine ⟨f2, dp2, fn2, r, q1, s.trans q2, ?_⟩
      rcases q3 with ⟨⟨cl', w⟩, q⟩ | ⟨w, q⟩
      · exact Or.inl ⟨⟨cl', .down d1 d2 d3 w⟩, q⟩
      · refine Or.inr ⟨?_, q⟩
        rintro ⟨cl', g⟩
        cases g with
        | down g1 g2 _ g4 =>
          rw [found_unique g1 d1, d2] at g2
          rw [← Option.some.inj g2] at g4
          exact w ⟨cl', g4⟩

/-- **Other paths**, those with a name not of the form 8.3 or ending with a slash, are refused, be the directories there or not. -/
theorem refused_partial {env : Env} (hq : Quiet env) {rt : Root} {K : Nat → Prop} {dir : Nat → List Item} {fs : Fs} (h : Tree fs rt K dir) (dp : Dir) (old : Nat → BitVec 8) {path : List (BitVec 8)}
    {ns : List (List (BitVec 8))} (ht : Trail (fun c => ¬ odd c) path ns) (ho : ¬ Origin path) :
    ∃ fs' dp' fn r, followPath env rt fs dp old path = some (fs', dp', fn, r) ∧ Seen fs fs' ∧
      (((∃ cl', Walks dir fs.ty 0 ns cl') ∧ r = .invalidName) ∨ ((¬ ∃ cl', Walks dir fs.ty 0 ns cl') ∧ r = .noPath)) := by
  unfold followPath
  dsimp only
  rw [if_neg (fun x => ho ((origin_iff path).mpr x))]
  exact refused_loop hq (strip_trail ht) _ fs h 0 h.root _ rfl old (by omega)

/-- **The root.** The empty path and a single slash lead to the root itself, before its first entry. -/
theorem root_path {env : Env} (hq : Quiet env) {rt : Root} {K : Nat → Prop} {dir : Nat → List Item} {fs : Fs} (h : Tree fs rt K dir) (dp : Dir) (old : Nat → BitVec 8) {path : List (BitVec 8)} (ho : Origin path) :
    ∃ fs' dp', followPath env rt fs dp old path = some (fs', dp', old, .origin) ∧ Seen fs fs' ∧ ∃ L S n, Area fs' rt 0 L S n ∧ AtItem fs' 0 L S n dp' 0 ∧ dir 0 = dirOf fs' S n := by
  obtain ⟨L, S, n, a, d⟩ := h.area 0 h.root
  have := a.pos h.ok.layout
  obtain ⟨f, d', e, s, c⟩ := sdi_spec hq rt a h.ok { dp with sclust := 0 } rfl 0 ⟨by omega, by decide⟩
  unfold followPath
  dsimp only
  rw [if_pos ((origin_iff path).mp ho), e]
  dsimp only
  rw [if_pos rfl]
  exact ⟨f, d', rfl, s, L, S, n, a.seen s, c, by rw [d, dirOf_seen a h.ok.layout s]⟩

/-! ## Examples -/

/-- An entry: name, attributes and first cluster -/
def itemOf (name : List (BitVec 8)) (attr start : BitVec 8) (j : Nat) : BitVec 8 := if j < 11 then name.getD j 0x20 else if j = 11 then attr else if j = 26 then start else 0

/-- A volume with the file `A` and the directory `SUB` in the root (sector 5), and in `SUB` (cluster 2, sector 10) the entries `.` and `..` and the file `B.TXT` -/
def house : Fs :=
  { empty with
    win := fun i => if i < 6 then 255#8 else 0#8
    disk := fun s i =>
      if s = 1 ∨ s = 3 then (if i < 6 then 255#8 else 0#8)
      else if s = 5 then (if i < 32 then itemOf [65] 0x20 7 i else if i < 64 then itemOf [83, 85, 66] 0x10 2 (i - 32) else 0)
      else if s = 10 then
        (if i < 32 then itemOf [46] 0x10 2 i else if i < 64 then itemOf [46, 46] 0x10 0 (i - 32) else if i < 96 then itemOf [66, 0x20, 0x20, 0x20, 0x20, 0x20, 0x20, 0x20, 84, 88, 84] 0x20 8 (i - 64) else 0)
      else 0 }

theorem house_ok : house.Ok := by
  refine ⟨⟨by decide, by decide, by decide, by decide, by decide, by decide, by decide⟩, fun _ => ?_, ?_, by decide⟩
  · funext i
    simp [house, empty, vol]
  · unfold Fs.InCopies
    decide

/-- The directories of `house` -/
def rooms (cl : Nat) : List Item := dirOf house (if cl = 0 then fun i => root.dirbase + i else house.sec [2]) 1

theorem house_tree : Tree house root (fun cl => cl = 0 ∨ cl = 2) rooms := by
  have key : ∀ (S : Nat → Nat), (∀ i, i < 16 → entryOf house S i 11 &&& 0x10 = 0 ∨ Spec.start .fat16 (entryOf house S i) 0 = 0 ∨ Spec.start .fat16 (entryOf house S i) 0 = 2) →
      ∀ fn i e, proper fn → fn 0 ≠ 0x2E → FoundAt (dirOf house S 1) fn i → (dirOf house S 1)[i]? = some e → isDir e → Spec.start house.ty e 0 = 0 ∨ Spec.start house.ty e 0 = 2 := by
    intro S h fn i e _ _ _ h1 h2
    rw [dirOf_get] at h1
    by_cases hi : i < 16 * 1 ∧ i < 65536
    · rw [if_pos hi] at h1
      rw [← Option.some.inj h1] at h2 ⊢
      exact (h i (by omega)).resolve_left h2
    · rw [if_neg hi] at h1
      cases h1
  refine ⟨house_ok, ⟨0, by decide, by decide⟩, Or.inl rfl, fun cl hc => ?_, fun cl hc => ?_⟩
  · rcases hc with rfl | rfl
    · exact ⟨[], fun i => root.dirbase + i, 1, Area.static (fs := house) (rt := root) (by decide) (by decide) (by decide) (by decide) (by decide), rfl⟩
    · exact ⟨[2], house.sec [2], 1, Area.chain (fs := house) (rt := root) (cl := 2) (c := 2) (L := [2]) (Or.inl rfl) (.last (by decide) (by decide) (by decide +kernel)), rfl⟩
  · rcases hc with rfl | rfl
    · exact key _ (by decide +kernel)
    · exact key _ (by decide +kernel)

/-- `/sub//B.txt` -/
def pathB : List (BitVec 8) := [0x2F, 0x73, 0x75, 0x62, 0x2F, 0x2F, 0x42, 0x2E, 0x74, 0x78, 0x74]

def storedB : List (List (BitVec 8)) := [[83, 85, 66, 0x20, 0x20, 0x20, 0x20, 0x20, 0x20, 0x20, 0x20], [66, 0x20, 0x20, 0x20, 0x20, 0x20, 0x20, 0x20, 84, 88, 84]]

theorem pathB_text : Text (fun c => ¬ odd c) pathB storedB :=
  .more (seps := [0x2F]) (s := [0x73, 0x75, 0x62]) (c := 0x2F) (rest := [0x2F, 0x42, 0x2E, 0x74, 0x78, 0x74]) (body := [0x73, 0x75, 0x62]) (ext := []) (by simp [slash]) ⟨Or.inl ⟨rfl, rfl⟩, by decide, by decide⟩ (by decide) (Or.inl rfl)
    (.last (seps := [0x2F]) (s := [0x42, 0x2E, 0x74, 0x78, 0x74]) (tail := []) (body := [0x42]) (ext := [0x74, 0x78, 0x74]) (by simp [slash]) ⟨Or.inr rfl, by decide, by decide⟩ (by decide) (by simp))

/-- The path leads to entry 2 of the directory in cluster 2. -/
example : Resolves rooms house.ty 0 storedB (.found 2 2) := by
  refine .down (i := 1) (e := entryOf house (fun i => root.dirbase + i) 1) ⟨⟨_, rfl, by decide +kernel, by decide +kernel⟩, ?_, ?_⟩ rfl (by unfold isDir; decide +kernel) ?_
  · intro j hj e he
    rw [← Option.some.inj ((show (rooms 0)[j]? = some (entryOf house (fun i => root.dirbase + i) j) by unfold rooms; rw [if_pos rfl, dirOf_get, if_pos (by omega)]).symm.trans he)]
    exact (by decide +kernel : ∀ j, j ≤ 1 → entryOf house (fun i => root.dirbase + i) j 0 ≠ 0) j hj
  · intro j hj e he h
    rw [← Option.some.inj ((show (rooms 0)[j]? = some (entryOf house (fun i => root.dirbase + i) j) by unfold rooms; rw [if_pos rfl, dirOf_get, if_pos (by omega)]).symm.trans he)] at h
    exact (by decide +kernel : ∀ j, j < 1 → entryOf house (fun i => root.dirbase + i) j 0 ≠ 83) j hj (h.2 0 (by decide))
  · show Resolves rooms house.ty 2 _ _
    refine .found ⟨⟨_, rfl, by decide +kernel, by decide +kernel⟩, ?_, ?_⟩
    · intro j hj e he
      rw [← Option.some.inj ((show (rooms 2)[j]? = some (entryOf house (house.sec [2]) j) by unfold rooms; rw [if_neg (by decide), dirOf_get, if_pos (by omega)]).symm.trans he)]
      exact (by decide +kernel : ∀ j, j ≤ 2 → entryOf house (house.sec [2]) j 0 ≠ 0) j hj
    · intro j hj e he h
      rw [← Option.some.inj ((show (rooms 2)[j]? = some (entryOf house (house.sec [2]) j) by unfold rooms; rw [if_neg (by decide), dirOf_get, if_pos (by omega)]).symm.trans he)] at h
      exact (by decide +kernel : ∀ j, j < 2 → entryOf house (house.sec [2]) j 0 ≠ 66) j hj (h.2 0 (by decide))

/-- The theorem holds for it. -/
example : ∃ fs' dp' fn r o, followPath calm root house ⟨0, 0, 0, 0, 0⟩ (fun _ => 0) pathB = some (fs', dp', fn, r) ∧ Seen house fs' ∧ Resolves rooms house.ty 0 storedB o ∧ Shows fs' root rooms dp' r o ∧
    (r = .fr .noFile → alike fn (nameOf (storedB.getLastD []))) :=
  follow_right_partial calm_quiet house_tree _ _ pathB_text

/-- The code's results for a path: the result, the directory, the entry, and the first byte of the entry -/
def trip (path : List (BitVec 8)) : Option (PathRes × Nat × Nat × BitVec 8) :=
  (followPath calm root house ⟨0, 0, 0, 0, 0⟩ (fun _ => 0) path).map fun x => (x.2.2.2, x.2.1.sclust, x.2.1.index, x.1.win x.2.1.off)

example : trip pathB = some (.fr .ok, 2, 2, 66) := by decide +kernel
/-- `a`; `sub/c`; `a/b`; `x/b`; the empty path; `/` -/
example : trip [0x61] = some (.fr .ok, 0, 0, 65) ∧ (trip [0x73, 0x75, 0x62, 0x5C, 0x63]).map (fun x => (x.1, x.2.1)) = some (.fr .noFile, 2) ∧ (trip [0x61, 0x2F, 0x62]).map (·.1) = some .noPath ∧
    (trip [0x78, 0x2F, 0x62]).map (·.1) = some .noPath ∧ (trip []).map (·.1) = some .origin ∧ (trip [0x2F]).map (·.1) = some .origin := by decide +kernel
/-- `sub/` and `//` are refused although `sub` and `/` are there. -/
theorem slash_refused : (trip [0x73, 0x75, 0x62, 0x2F]).map (·.1) = some .invalidName ∧ (trip [0x2F, 0x2F]).map (·.1) = some .invalidName ∧ (trip [0x73, 0x75, 0x62]).map (·.1) = some (.fr .ok) ∧
    (trip [0x2F]).map (·.1) = some .origin := by decide +kernel

/-- `sub/` as a path of one directory and no further name -/
example : ∃ fs' dp' fn r, followPath calm root house ⟨0, 0, 0, 0, 0⟩ (fun _ => 0) [0x73, 0x75, 0x62, 0x2F] = some (fs', dp', fn, r) ∧ Seen house fs' ∧
    (((∃ cl', Walks rooms house.ty 0 [storedB.headD []] cl') ∧ r = .invalidName) ∨ ((¬ ∃ cl', Walks rooms house.ty 0 [storedB.headD []] cl') ∧ r = .noPath)) :=
  refused_partial calm_quiet house_tree _ _
    (.more (seps := []) (s := [0x73, 0x75, 0x62]) (c := 0x2F) (rest := []) (body := [0x73, 0x75, 0x62]) (ext := []) (by simp) ⟨Or.inl ⟨rfl, rfl⟩, by decide, by decide⟩ (by decide) (Or.inl rfl)
      (.here (.none (seps := []) (tail := []) (by simp) (by simp))))
    (fun h => absurd ((origin_iff _).mp h) (by decide))

end Verif.Fat
