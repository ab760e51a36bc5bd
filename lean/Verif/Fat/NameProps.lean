import Verif.Fat.NameModel
import Verif.Fat.NameSpec

/-!
# FatFs: names of files — properties
-/

namespace Verif.Fat

open Spec (upper stops legal Name83 stored shown)

/-- The characters for which the table of the code is wrong -/
def odd (c : BitVec 8) : Prop := c = 0x9A ∨ c = 0x9E ∨ c = 0xA1

instance (c : BitVec 8) : Decidable (odd c) := inferInstanceAs (Decidable (_ ∨ _ ∨ _))

/-- The table makes large letters of small ones, apart from three characters. -/
theorem letters_partial : ∀ c : BitVec 8, stops c = false → ¬ odd c → capital (extended c) = upper c := by decide +kernel

/-- What the code accepts -/
theorem legal_iff : ∀ c : BitVec 8, legal c = true ↔ stops c = false ∧ c ≠ 0x2E ∧ extended c ∉ rejected := by decide +kernel

theorem stops_iff : ∀ c : BitVec 8, stops c = true ↔ (c ≤ 0x20 ∨ c = 0x2F ∨ c = 0x5C) := by decide +kernel

/-- `w` from position `i` on -/
def fill (sfn : Nat → BitVec 8) (i : Nat) (w : List (BitVec 8)) : Nat → BitVec 8 := fun j => if i ≤ j then w.getD (j - i) (sfn j) else sfn j

theorem fill_cons (sfn : Nat → BitVec 8) (i : Nat) (c : BitVec 8) (w : List (BitVec 8)) : fill (set sfn i c) (i + 1) w = fill sfn i (c :: w) := by
  funext j
  unfold fill set
  by_cases h : i ≤ j
  · by_cases e : j = i
    · subst e
      rw [if_neg (by omega), if_pos rfl, if_pos h, Nat.sub_self]
      rfl
    · rw [if_pos (by omega), if_pos h, if_neg e]
      obtain ⟨k, rfl⟩ : ∃ k, j = i + 1 + k := ⟨j - (i + 1), by omega⟩
      rw [show i + 1 + k - (i + 1) = k by omega, show i + 1 + k - i = k + 1 by omega]
      rfl
  · rw [if_neg (by omega), if_neg (by omega), if_neg h]

theorem fill_nil (sfn : Nat → BitVec 8) (i : Nat) : fill sfn i [] = sfn := by
  funext j
  unfold fill
  split <;> rfl

/-- Characters up to the next dot or end -/
theorem loop_word (w : List (BitVec 8)) : ∀ (sfn : Nat → BitVec 8) (i ni : Nat) (t : List (BitVec 8)), (∀ c ∈ w, legal c = true) → i + w.length ≤ ni →
    nameLoop sfn i ni (w ++ t) = nameLoop (fill sfn i (w.map fun c => capital (extended c))) (i + w.length) ni t := by
  induction w with
  | nil => intro sfn i ni t _ _; rw [List.map_nil, fill_nil]; rfl
  | cons c w ih =>
    intro sfn i ni t h hl
    obtain ⟨h1, h2, h3⟩ := (legal_iff c).mp (h c (by simp))
    rw [List.cons_append, nameLoop, if_neg (fun x => by rw [(stops_iff c).mpr x] at h1; exact Bool.noConfusion h1), if_neg (fun x => x.elim h2 (fun y => by rw [List.length_cons] at hl; omega))]
    dsimp only
    rw [if_neg h3, ih _ _ _ _ (fun x hx => h x (by simp [hx])) (by rw [List.length_cons] at hl; omega), List.map_cons, fill_cons, List.length_cons, show i + 1 + w.length = i + (w.length + 1) by omega]

/-- A character that is not allowed, or one too many -/
theorem loop_bad (w : List (BitVec 8)) : ∀ (sfn : Nat → BitVec 8) (i ni : Nat) (t : List (BitVec 8)), (∀ c ∈ w, stops c = false ∧ c ≠ 0x2E) → ((∃ c ∈ w, legal c = false) ∨ ni < i + w.length) →
    i ≤ ni → nameLoop sfn i ni (w ++ t) = none := by
  induction w with
  | nil =>
    intro sfn i ni t _ h hi
    rcases h with ⟨c, hc, _⟩ | h
    · exact absurd hc (by simp)
    · rw [List.length_nil] at h; omega
  | cons c w ih =>
    intro sfn i ni t hw h hi
    obtain ⟨h1, h2⟩ := hw c (by simp)
    rw [List.cons_append, nameLoop, if_neg (fun x => by rw [(stops_iff c).mpr x] at h1; exact Bool.noConfusion h1)]
    by_cases k : i ≥ ni
    · rw [if_pos (Or.inr k), if_pos (Or.inr h2)]
    · rw [if_neg (fun x => x.elim h2 k)]
      dsimp only
      by_cases r : extended c ∈ rejected
      · rw [if_pos r]
      · rw [if_neg r]
        refine ih _ _ _ _ (fun x hx => hw x (by simp [hx])) ?_ (by omega)
        rcases h with ⟨x, hx, hn⟩ | h
        · rcases List.mem_cons.mp hx with rfl | hx
          · rw [(legal_iff x).mpr ⟨h1, h2, r⟩] at hn
            exact Bool.noConfusion hn
          · exact Or.inl ⟨x, hx, hn⟩
        · rw [List.length_cons] at h
          exact Or.inr (by omega)

/-- The character after a name, 0 at the end of the string, and what follows it -/
def lastOf (tail : List (BitVec 8)) : Bool := tail.headD 0 ≤ 0x20

theorem loop_end (sfn : Nat → BitVec 8) (i ni : Nat) (tail : List (BitVec 8)) (h : ∀ c ∈ tail.head?, stops c = true) : nameLoop sfn i ni tail = some (sfn, i, tail.headD 0, tail.tail) := by
  cases tail with
  | nil => rfl
  | cons c t =>
    rw [nameLoop, if_pos ((stops_iff c).mp (h c (by simp)))]
    rfl

/-- The first part of a list without the dots -/
theorem split_dot (s : List (BitVec 8)) : ∃ w t, s = w ++ t ∧ (∀ c ∈ w, c ≠ 0x2E) ∧ (t = [] ∨ ∃ u, t = 0x2E :: u) := by
  induction s with
  | nil => exact ⟨[], [], rfl, fun _ h => absurd h (by simp), Or.inl rfl⟩
  | cons c s ih =>
    by_cases h : c = 0x2E
    · exact ⟨[], c :: s, rfl, fun _ h => absurd h (by simp), Or.inr ⟨s, by rw [h]⟩⟩
    · obtain ⟨w, t, rfl, h1, h2⟩ := ih
      refine ⟨c :: w, t, rfl, fun x hx => ?_, h2⟩
      rcases List.mem_cons.mp hx with rfl | hx
      · exact h
      · exact h1 x hx

/-- The eleven bytes, as `create_name` makes them -/
def made (body ext : List (BitVec 8)) : Nat → BitVec 8 :=
  fill (fill (fun _ => 0x20) 0 (body.map fun c => capital (extended c))) 8 (ext.map fun c => capital (extended c))

theorem loop_name (s body ext tail : List (BitVec 8)) (h : Name83 s body ext) (ht : ∀ c ∈ tail.head?, stops c = true) :
    ∃ i, 0 < i ∧ nameLoop (fun _ => 0x20) 0 8 (s ++ tail) = some (made body ext, i, tail.headD 0, tail.tail) := by
  obtain ⟨hx, ⟨b0, b8, bl⟩, e3, el⟩ := h
  have bp : 0 < body.length := List.length_pos_iff.mpr b0
  rcases hx with ⟨rfl, rfl⟩ | rfl
  · refine ⟨0 + s.length, by omega, ?_⟩
    rw [loop_word s _ _ _ _ bl (by omega), loop_end _ _ _ _ ht]
    unfold made
    rw [List.map_nil, fill_nil]
  · refine ⟨8 + ext.length, by omega, ?_⟩
    rw [List.append_assoc, loop_word body _ _ _ _ bl (by omega), List.cons_append, nameLoop, if_neg (by decide), if_pos (Or.inl rfl), if_neg (by decide), loop_word ext _ _ _ _ el (by omega),
      loop_end _ _ _ _ ht]
    rfl

theorem loop_none (s tail : List (BitVec 8)) (hs : ∀ c ∈ s, stops c = false) (h0 : s.head? ≠ some 0x2E) (hn : s ≠ []) (h : ¬ ∃ body ext, Name83 s body ext) :
    nameLoop (fun _ => 0x20) 0 8 (s ++ tail) = none := by
  obtain ⟨w, t, rfl, h1, h2⟩ := split_dot s
  have hw : ∀ c ∈ w, stops c = false ∧ c ≠ 0x2E := fun c hc => ⟨hs c (by simp [hc]), h1 c hc⟩
  have w0 : w ≠ [] := by
    rintro rfl
    rcases h2 with rfl | ⟨u, rfl⟩
    · exact hn rfl
    · exact h0 rfl
  by_cases a : (∃ c ∈ w, legal c = false) ∨ 8 < 0 + w.length
  · rw [List.append_assoc]
    exact loop_bad w _ _ _ _ hw a (by decide)
  · have hl : ∀ c ∈ w, legal c = true := fun c hc => by
      cases k : legal c with
      | true => rfl
      | false => exact absurd (Or.inl ⟨c, hc, k⟩) a
    have h8 : w.length ≤ 8 := by
      by_cases k : 8 < 0 + w.length
      · exact absurd (Or.inr k) a
      · omega
    rcases h2 with rfl | ⟨u, rfl⟩
    · exact absurd ⟨w, [], Or.inl ⟨by simp, rfl⟩, ⟨w0, h8, hl⟩, by simp⟩ h
    · rw [List.append_assoc, loop_word w _ _ _ _ hl (by omega), List.cons_append, nameLoop, if_neg (by decide), if_pos (Or.inl rfl), if_neg (by decide)]
      obtain ⟨v, t, rfl, k1, k2⟩ := split_dot u
      have hv : ∀ c ∈ v, stops c = false ∧ c ≠ 0x2E := fun c hc => ⟨hs c (by simp [hc]), k1 c hc⟩
      by_cases b : (∃ c ∈ v, legal c = false) ∨ 11 < 8 + v.length
      · rw [List.append_assoc]
        exact loop_bad v _ _ _ _ hv b (by decide)
      · have vl : ∀ c ∈ v, legal c = true := fun c hc => by
          cases k : legal c with
          | true => rfl
          | false => exact absurd (Or.inl ⟨c, hc, k⟩) b
        have h3 : v.length ≤ 3 := by
          by_cases k : 11 < 8 + v.length
          · exact absurd (Or.inr k) b
          · omega
        rcases k2 with rfl | ⟨u, rfl⟩
        · exact absurd ⟨w, v, Or.inr (by simp), ⟨w0, h8, hl⟩, h3, vl⟩ h
        · rw [List.append_assoc, loop_word v _ _ _ _ vl (by omega), List.cons_append, nameLoop, if_neg (by decide), if_pos (Or.inl rfl), if_pos (Or.inl (by decide))]

theorem getD_map {α β : Type} (f : α → β) (l : List α) (i : Nat) (d : β) : (l.map f).getD i d = (l[i]?.map f).getD d := by
  rw [List.getD_eq_getElem?_getD, List.getElem?_map]

theorem list11 (f : Nat → BitVec 8) : (List.range 11).map f = [f 0, f 1, f 2, f 3, f 4, f 5, f 6, f 7, f 8, f 9, f 10] := rfl

theorem getElem?_stored (b e : List (BitVec 8)) (h8 : b.length ≤ 8) (h3 : e.length ≤ 3) (j : Nat) (hj : j < 11) :
    (b ++ List.replicate (8 - b.length) 0x20 ++ e ++ List.replicate (3 - e.length) 0x20)[j]? = some (if 8 ≤ j then e.getD (j - 8) 0x20 else b.getD j (0x20 : BitVec 8)) := by
  rw [List.append_assoc]
  have hl : (b ++ List.replicate (8 - b.length) (0x20 : BitVec 8)).length = 8 := by rw [List.length_append, List.length_replicate]; omega
  have pad : ∀ (l : List (BitVec 8)) (n k : Nat), l.length ≤ n → k < n → (l ++ List.replicate (n - l.length) 0x20)[k]? = some (l.getD k 0x20) := by
    intro l n k hl hk
    by_cases c : k < l.length
    · rw [List.getElem?_append_left c, List.getD_eq_getElem?_getD, List.getElem?_eq_getElem c]
      rfl
    · rw [List.getElem?_append_right (by omega), List.getElem?_replicate, if_pos (by omega), List.getD_eq_getElem?_getD, List.getElem?_eq_none (by omega)]
      rfl
  by_cases h : 8 ≤ j
  · rw [List.getElem?_append_right (by omega), hl, if_pos h]
    exact pad e 3 _ h3 (by omega)
  · rw [List.getElem?_append_left (by omega), if_neg h]
    exact pad b 8 _ h8 (by omega)

/-- The bytes are the ones of the directory. -/
theorem made_stored (body ext : List (BitVec 8)) (h8 : body.length ≤ 8) (h3 : ext.length ≤ 3) (hb : ∀ c ∈ body, legal c = true ∧ ¬ odd c) (he : ∀ c ∈ ext, legal c = true ∧ ¬ odd c) :
    (List.range 11).map (made body ext) = stored body ext := by
  have cong : ∀ l : List (BitVec 8), (∀ c ∈ l, legal c = true ∧ ¬ odd c) → l.map (fun c => capital (extended c)) = l.map upper := fun l h =>
    List.map_congr_left fun c hc => letters_partial c ((legal_iff c).mp (h c hc).1).1 (h c hc).2
  apply List.ext_getElem?
  intro j
  unfold stored made
  rw [cong body hb, cong ext he]
  dsimp only
  by_cases hj : j < 11
  · rw [getElem?_stored _ _ (by rw [List.length_map]; exact h8) (by rw [List.length_map]; exact h3) j hj, List.getElem?_map, List.getElem?_range hj, Option.map_some]
    unfold fill
    by_cases h : 8 ≤ j
    · rw [if_pos h, if_pos h, if_pos (Nat.zero_le _)]
      rw [List.getD_eq_getElem?_getD, List.getD_eq_getElem?_getD, List.getD_eq_getElem?_getD, List.getElem?_eq_none (l := List.map upper body) (by rw [List.length_map]; omega)]
      rfl
    · rw [if_neg h, if_neg h, if_pos (Nat.zero_le _)]
      rfl
  · rw [List.getElem?_eq_none (by simp; omega), List.getElem?_eq_none (by simp; omega)]

theorem drop_slashes (seps s : List (BitVec 8)) (h : ∀ c ∈ seps, c = 0x2F ∨ c = 0x5C) (hs : ∀ c ∈ s.head?, c ≠ 0x2F ∧ c ≠ 0x5C) : (seps ++ s).dropWhile (fun c => c == 0x2F || c == 0x5C) = s := by
  induction seps with
  | nil =>
    cases s with
    | nil => rfl
    | cons c t =>
      obtain ⟨h1, h2⟩ := hs c (by simp)
      rw [List.nil_append, List.dropWhile_cons_of_neg (by simp; exact ⟨h1, h2⟩)]
  | cons c l ih =>
    rw [List.cons_append, List.dropWhile_cons_of_pos (by rcases h c (by simp) with rfl | rfl <;> rfl)]
    exact ih fun x hx => h x (by simp [hx])

theorem upper_legal : ∀ c : BitVec 8, legal c = true → ¬ odd c → upper c ≠ 0xE5 ∧ upper c ≠ 0x20 ∧ upper c ≠ 0x05 ∧ upper c ≠ 0 ∧ legal (upper c) = true ∧ ¬ odd (upper c) ∧ upper (upper c) = upper c := by
  decide +kernel

theorem head_plain (s tail : List (BitVec 8)) (hn : s ≠ []) (hs : ∀ c ∈ s, stops c = false) : ∀ c ∈ (s ++ tail).head?, c ≠ 0x2F ∧ c ≠ 0x5C := by
  cases s with
  | nil => exact absurd rfl hn
  | cons a s =>
    intro c hc
    rw [List.cons_append, List.head?_cons, Option.mem_def, Option.some.injEq] at hc
    subst hc
    have := hs a (by simp)
    constructor <;> (rintro rfl; exact absurd this (by decide))

/-- **Names in paths.** In a path of slashes, a name and what follows it, the name is turned into the eleven bytes of the directory; whether it is the last name and what follows it are told. -/
theorem create_name_partial (seps s tail body ext : List (BitVec 8)) (hp : ∀ c ∈ seps, c = 0x2F ∨ c = 0x5C) (ht : ∀ c ∈ tail.head?, stops c = true) (hn : Name83 s body ext) (ho : ∀ c ∈ s, ¬ odd c) :
    ∃ fn, createName (seps ++ s ++ tail) = some (fn, decide (tail.headD 0 ≤ 0x20), tail.tail) ∧ (List.range 11).map fn = stored body ext := by
  obtain ⟨hx, ⟨b0, b8, bl⟩, e3, el⟩ := hn
  have hb : ∀ c ∈ body, legal c = true ∧ ¬ odd c := fun c hc => ⟨bl c hc, ho c (by rcases hx with ⟨rfl, _⟩ | rfl <;> simp [hc])⟩
  have he : ∀ c ∈ ext, legal c = true ∧ ¬ odd c := fun c hc => ⟨el c hc, ho c (by rcases hx with ⟨rfl, rfl⟩ | rfl <;> first | exact absurd hc (by simp) | simp [hc])⟩
  have hl : ∀ c ∈ (s ++ tail).head?, c ≠ 0x2F ∧ c ≠ 0x5C := by
    obtain ⟨a, u, rfl⟩ := List.exists_cons_of_ne_nil b0
    have hs : s.head? = some a := by rcases hx with ⟨rfl, _⟩ | rfl <;> rfl
    intro c hc
    rw [List.head?_append, hs, Option.some_or, Option.mem_def, Option.some.injEq] at hc
    subst hc
    have := ((legal_iff a).mp (bl a (by simp))).1
    constructor <;> (rintro rfl; exact absurd this (by decide))
  obtain ⟨i, i0, e⟩ := loop_name s body ext tail ⟨hx, ⟨b0, b8, bl⟩, e3, el⟩ ht
  have m0 : made body ext 0 ≠ 0xE5 := by
    obtain ⟨a, u, rfl⟩ := List.exists_cons_of_ne_nil b0
    have := upper_legal a (hb a (by simp)).1 (hb a (by simp)).2
    rw [← letters_partial a ((legal_iff a).mp (hb a (by simp)).1).1 (hb a (by simp)).2] at this
    exact this.1
  refine ⟨made body ext, ?_, made_stored body ext b8 e3 hb he⟩
  unfold createName
  rw [List.append_assoc, drop_slashes seps _ hp hl, e]
  dsimp only
  rw [if_neg (by omega), if_neg m0]

/-- **Other names** are refused. -/
theorem create_name_refused_partial (seps s tail : List (BitVec 8)) (hp : ∀ c ∈ seps, c = 0x2F ∨ c = 0x5C) (hs : ∀ c ∈ s, stops c = false) (hn : s ≠ []) (h0 : s.head? ≠ some 0x2E)
    (h : ¬ ∃ body ext, Name83 s body ext) : createName (seps ++ s ++ tail) = none := by
  unfold createName
  rw [List.append_assoc, drop_slashes seps _ hp (head_plain s tail hn hs), loop_none s tail hs h0 hn h]

/-- **No name** is refused as well. -/
theorem create_name_empty (seps tail : List (BitVec 8)) (hp : ∀ c ∈ seps, c = 0x2F ∨ c = 0x5C) (ht : ∀ c ∈ tail.head?, c ≤ 0x20) : createName (seps ++ tail) = none := by
  have hl : ∀ c ∈ tail.head?, c ≠ 0x2F ∧ c ≠ 0x5C := fun c hc => by
    have := ht c hc
    constructor <;> (rintro rfl; exact absurd this (by decide))
  unfold createName
  rw [drop_slashes seps tail hp hl, loop_end _ _ _ _ (fun c hc => (stops_iff c).mpr (Or.inl (ht c hc)))]
  rfl

theorem showFrom_congr (f g : Nat → BitVec 8) : ∀ k i, (∀ j, i ≤ j → j < i + k → f j = g j) → showFrom f i k = showFrom g i k := by
  intro k
  induction k with
  | zero => intro i _; rfl
  | succ k ih =>
    intro i h
    rw [showFrom, showFrom, h i (Nat.le_refl i) (by omega), ih (i + 1) (fun j h1 h2 => h j (by omega) (by omega))]

theorem showFrom_blank (f : Nat → BitVec 8) : ∀ k i, (∀ j, i ≤ j → j < i + k → f j = 0x20) → showFrom f i k = [] := by
  intro k
  induction k with
  | zero => intro i _; rfl
  | succ k ih =>
    intro i h
    rw [showFrom, if_pos (h i (Nat.le_refl i) (by omega)), ih (i + 1) (fun j h1 h2 => h j (by omega) (by omega))]

theorem showFrom_word (f : Nat → BitVec 8) (k : Nat) : ∀ (w : List (BitVec 8)) (i : Nat), (∀ j, j < w.length → f (i + j) = w.getD j 0) → (∀ c ∈ w, c ≠ 0x20 ∧ c ≠ 0x05) →
    showFrom f i (w.length + k) = (if i ≤ 8 ∧ 8 < i + w.length then w.take (8 - i) ++ 0x2E :: w.drop (8 - i) else w) ++ showFrom f (i + w.length) k := by
  intro w
  induction w with
  | nil => intro i _ _; rw [if_neg (by simp), List.length_nil, Nat.zero_add, Nat.add_zero, List.nil_append]
  | cons c w ih =>
    intro i h hc
    have e0 : f i = c := h 0 (by simp)
    obtain ⟨c1, c2⟩ := hc c (by simp)
    have ih := ih (i + 1) (fun j hj => by rw [show i + 1 + j = i + (j + 1) by omega]; exact h (j + 1) (by simp; omega)) (fun x hx => hc x (by simp [hx]))
    rw [List.length_cons, show w.length + 1 + k = (w.length + k) + 1 by omega, showFrom, e0, if_neg c1, if_neg c2, ih, show i + 1 + w.length = i + (w.length + 1) by omega]
    by_cases a : i = 8
    · subst a
      rw [if_pos rfl, if_neg (by omega), if_pos (by omega)]
      rfl
    · rw [if_neg a, List.nil_append]
      by_cases b : i ≤ 8 ∧ 8 < i + (w.length + 1)
      · rw [if_pos b, if_pos (by omega)]
        obtain ⟨m, hm⟩ : ∃ m, 8 - i = m + 1 := ⟨7 - i, by omega⟩
        rw [show 8 - (i + 1) = m by omega, hm]
        rfl
      · rw [if_neg b, if_neg (by omega)]
        rfl

/-- **Names in directories.** The bytes of a name are shown as its large letters. -/
theorem show_name_partial (s body ext : List (BitVec 8)) (fn : Nat → BitVec 8) (hn : Name83 s body ext) (ho : ∀ c ∈ s, ¬ odd c) (hf : (List.range 11).map fn = stored body ext) :
    showName fn = shown body ext := by
  obtain ⟨hx, ⟨b0, b8, bl⟩, e3, el⟩ := hn
  have hb : ∀ c ∈ body.map upper, c ≠ 0x20 ∧ c ≠ 0x05 := by
    intro c hc
    obtain ⟨a, ha, rfl⟩ := List.mem_map.mp hc
    have := upper_legal a (bl a ha) (ho a (by rcases hx with ⟨rfl, _⟩ | rfl <;> simp [ha]))
    exact ⟨this.2.1, this.2.2.1⟩
  have he : ∀ c ∈ ext.map upper, c ≠ 0x20 ∧ c ≠ 0x05 := by
    intro c hc
    obtain ⟨a, ha, rfl⟩ := List.mem_map.mp hc
    have := upper_legal a (el a ha) (ho a (by rcases hx with ⟨rfl, rfl⟩ | rfl <;> first | exact absurd ha (by simp) | simp [ha]))
    exact ⟨this.2.1, this.2.2.1⟩
  have lb : (body.map upper).length = body.length := List.length_map ..
  have le : (ext.map upper).length = ext.length := List.length_map ..
  have at' : ∀ j, j < 11 → fn j = if 8 ≤ j then (ext.map upper).getD (j - 8) 0x20 else (body.map upper).getD j 0x20 := by
    intro j hj
    have h1 : ((List.range 11).map fn)[j]? = some (fn j) := by rw [List.getElem?_map, List.getElem?_range hj]; rfl
    rw [hf] at h1
    unfold stored at h1
    dsimp only at h1
    rw [getElem?_stored _ _ (by omega) (by omega) j hj, Option.some.injEq] at h1
    exact h1.symm
  have first : ∀ (l : List (BitVec 8)) (j : Nat) (a b : BitVec 8), j < l.length → l.getD j a = l.getD j b := by
    intro l j a b h
    rw [List.getD_eq_getElem?_getD, List.getD_eq_getElem?_getD, List.getElem?_eq_getElem h]
    rfl
  have later : ∀ (l : List (BitVec 8)) (j : Nat) (a : BitVec 8), l.length ≤ j → l.getD j a = a := by
    intro l j a h
    rw [List.getD_eq_getElem?_getD, List.getElem?_eq_none h]
    rfl
  have blank : ∀ k i, i + k = 8 → body.length ≤ i → ∀ m, showFrom fn i (k + m) = showFrom fn 8 m := by
    intro k
    induction k with
    | zero => intro i h _ m; rw [Nat.zero_add, show i = 8 by omega]
    | succ k ih =>
      intro i h hi m
      rw [show k + 1 + m = (k + m) + 1 by omega, showFrom, if_pos (by rw [at' i (by omega), if_neg (by omega), later _ _ _ (by omega)])]
      exact ih (i + 1) (by omega) (by omega) m
  have w1 := showFrom_word fn (11 - body.length) (body.map upper) 0 (fun j hj => by
    rw [Nat.zero_add, at' j (by omega), if_neg (by omega)]
    exact first _ _ _ _ hj) hb
  have w2 := showFrom_word fn (3 - ext.length) (ext.map upper) 8 (fun j hj => by
    rw [at' (8 + j) (by omega), if_pos (by omega), Nat.add_sub_cancel_left]
    exact first _ _ _ _ hj) he
  rw [lb, show body.length + (11 - body.length) = 11 by omega, if_neg (by omega), show 11 - body.length = (8 - body.length) + 3 by omega, blank _ _ (by omega) (by omega)] at w1
  rw [le, show ext.length + (3 - ext.length) = 3 by omega, showFrom_blank fn _ (8 + ext.length) (fun j h1 h2 => by rw [at' j (by omega), if_pos (by omega), later _ _ _ (by omega)])] at w2
  unfold showName shown
  rw [w1, w2]
  by_cases x : ext = []
  · subst x
    rfl
  · have : 0 < ext.length := List.length_pos_iff.mpr x
    rw [if_neg x, if_pos (by omega), Nat.sub_self, List.take_zero, List.drop_zero, List.nil_append, List.append_nil]

/-- **A name shown by a directory finds its entry.** -/
theorem shown_opens_partial (s body ext : List (BitVec 8)) (fn : Nat → BitVec 8) (hn : Name83 s body ext) (ho : ∀ c ∈ s, ¬ odd c) (hf : (List.range 11).map fn = stored body ext) :
    ∃ gn, createName (showName fn) = some (gn, true, []) ∧ (List.range 11).map gn = (List.range 11).map fn := by
  rw [show_name_partial s body ext fn hn ho hf, hf]
  obtain ⟨hx, ⟨b0, b8, bl⟩, e3, el⟩ := hn
  have hb : ∀ c ∈ body, legal c = true ∧ ¬ odd c := fun c hc => ⟨bl c hc, ho c (by rcases hx with ⟨rfl, _⟩ | rfl <;> simp [hc])⟩
  have he : ∀ c ∈ ext, legal c = true ∧ ¬ odd c := fun c hc => ⟨el c hc, ho c (by rcases hx with ⟨rfl, rfl⟩ | rfl <;> first | exact absurd hc (by simp) | simp [hc])⟩
  have um : ∀ l : List (BitVec 8), (∀ c ∈ l, legal c = true ∧ ¬ odd c) → (∀ c ∈ l.map upper, legal c = true) ∧ (∀ c ∈ l.map upper, ¬ odd c) ∧ (l.map upper).map upper = l.map upper := by
    intro l h
    refine ⟨fun c hc => ?_, fun c hc => ?_, ?_⟩
    · obtain ⟨a, ha, rfl⟩ := List.mem_map.mp hc
      exact (upper_legal a (h a ha).1 (h a ha).2).2.2.2.2.1
    · obtain ⟨a, ha, rfl⟩ := List.mem_map.mp hc
      exact (upper_legal a (h a ha).1 (h a ha).2).2.2.2.2.2.1
    · rw [List.map_map]
      exact List.map_congr_left fun c hc => (upper_legal c (h c hc).1 (h c hc).2).2.2.2.2.2.2
  obtain ⟨b1, b2, b3⟩ := um body hb
  obtain ⟨e1, e2, e3'⟩ := um ext he
  have sb : stored (body.map upper) (ext.map upper) = stored body ext := by
    unfold stored
    rw [b3, e3']
  have := create_name_partial [] (shown body ext) [] (body.map upper) (ext.map upper) (fun _ h => absurd h (by simp)) (fun _ h => absurd h (by simp)) ⟨by
    unfold shown
    by_cases x : ext = []
    · subst x
      exact Or.inl ⟨by simp, rfl⟩
    · exact Or.inr (by rw [if_neg x]), ⟨by simpa using b0, by rw [List.length_map]; exact b8, b1⟩, by rw [List.length_map]; exact e3, e1⟩ (fun c hc => by
    unfold shown at hc
    rcases List.mem_append.mp hc with h | h
    · exact b2 c h
    · by_cases x : ext = []
      · rw [if_pos x] at h
        exact absurd h (by simp)
      · rw [if_neg x] at h
        rcases List.mem_cons.mp h with rfl | h
        · decide
        · exact e2 c h)
  rw [List.nil_append, List.append_nil, sb] at this
  exact this

/-- **Names differ** when their bytes differ: two names lead to the same entry if and only if they are shown the same. -/
theorem stored_inj_partial (b e b' e' : List (BitVec 8)) {s s' : List (BitVec 8)} (h : Name83 s b e) (h' : Name83 s' b' e') (ho : ∀ c ∈ s, ¬ odd c) (ho' : ∀ c ∈ s', ¬ odd c) :
    stored b e = stored b' e' ↔ shown b e = shown b' e' := by
  obtain ⟨fn, _, f2⟩ := create_name_partial [] s [] b e (fun _ h => absurd h (by simp)) (fun _ h => absurd h (by simp)) h ho
  obtain ⟨fn', _, f2'⟩ := create_name_partial [] s' [] b' e' (fun _ h => absurd h (by simp)) (fun _ h => absurd h (by simp)) h' ho'
  have s1 := show_name_partial s b e fn h ho f2
  have s2 := show_name_partial s' b' e' fn' h' ho' f2'
  constructor
  · intro x
    rw [← x] at f2'
    rw [← s1]
    exact show_name_partial s b e fn h ho f2 |>.trans (by rw [← s2]; exact (show_name_partial s b e fn' h ho f2').symm)
  · intro x
    obtain ⟨g, g1, g2⟩ := shown_opens_partial s b e fn h ho f2
    obtain ⟨g', g1', g2'⟩ := shown_opens_partial s' b' e' fn' h' ho' f2'
    rw [s1, x, ← s2, g1', Option.some.injEq, Prod.mk.injEq] at g1
    rw [← f2, ← f2', ← g2, ← g2', g1.1]

/-! ## What the code does instead -/

/-- The table of the code makes a soft hyphen of the small `š`, the registered sign of the small `ž`, and an exclamation mark of the inverted one. -/
theorem table_wrong : capital (extended 0x9A) = 0xAD ∧ capital (extended 0x9E) = 0xAE ∧ capital (extended 0xA1) = 0x21 := by decide +kernel

/-- `"¡A"` and `"!A"` are the same file: different names, the same eleven bytes. -/
theorem names_collide : ∃ f g, createName [0xA1, 0x41] = some (f, true, []) ∧ createName [0x21, 0x41] = some (g, true, []) ∧ (List.range 11).map f = (List.range 11).map g ∧
    Name83 [0xA1, 0x41] [0xA1, 0x41] [] ∧ Name83 [0x21, 0x41] [0x21, 0x41] [] ∧ shown [0xA1, 0x41] [] ≠ shown [0x21, 0x41] [] := by
  refine ⟨_, _, rfl, rfl, by decide +kernel, ⟨Or.inl ⟨rfl, rfl⟩, by decide +kernel, by decide⟩, ⟨Or.inl ⟨rfl, rfl⟩, by decide +kernel, by decide⟩, by decide +kernel⟩

/-- `"."` is taken for a name: eleven blanks, which is shown as nothing at all. -/
theorem dot_accepted : ∃ f, createName [0x2E] = some (f, true, []) ∧ (List.range 11).map f = List.replicate 11 0x20 ∧ showName f = [] ∧ ¬ ∃ body ext, Name83 [0x2E] body ext := by
  refine ⟨_, rfl, by decide +kernel, by decide +kernel, ?_⟩
  rintro ⟨body, ext, hx, ⟨b0, _, bl⟩, _⟩
  obtain ⟨a, u, rfl⟩ := List.exists_cons_of_ne_nil b0
  have ha : a = 0x2E := by
    rcases hx with ⟨h, _⟩ | h
    · exact (List.cons.inj h).1.symm
    · exact (List.cons.inj h).1.symm
  subst ha
  exact absurd (bl 0x2E (by simp)) (by decide)

/-- `".TXT"` is taken as well; it is shown as it was written. -/
theorem bodiless_accepted : ∃ f, createName [0x2E, 0x54, 0x58, 0x54] = some (f, true, []) ∧ (List.range 11).map f = [0x20, 0x20, 0x20, 0x20, 0x20, 0x20, 0x20, 0x20, 0x54, 0x58, 0x54] ∧
    showName f = [0x2E, 0x54, 0x58, 0x54] := ⟨_, rfl, by decide +kernel, by decide +kernel⟩

/-! ## Examples -/

/-- `"/log.txt"` -/
example : Name83 [0x6C, 0x6F, 0x67, 0x2E, 0x74, 0x78, 0x74] [0x6C, 0x6F, 0x67] [0x74, 0x78, 0x74] := ⟨Or.inr rfl, by decide +kernel, by decide +kernel⟩

example : (createName [0x2F, 0x6C, 0x6F, 0x67, 0x2E, 0x74, 0x78, 0x74, 0x2F, 0x61]).map (fun x => ((List.range 11).map x.1, x.2)) =
    some ([0x4C, 0x4F, 0x47, 0x20, 0x20, 0x20, 0x20, 0x20, 0x54, 0x58, 0x54], false, [0x61]) := by decide +kernel

/-- Nine letters are no name. -/
example : createName [0x61, 0x61, 0x61, 0x61, 0x61, 0x61, 0x61, 0x61, 0x61] = none := by
  refine create_name_refused_partial [] (List.replicate 9 0x61) [] (fun _ h => absurd h (by simp)) (by decide +kernel) (by decide) (by decide) ?_
  rintro ⟨body, ext, hx, ⟨b0, b8, bl⟩, e3, el⟩
  rcases hx with ⟨h, _⟩ | h
  · rw [← h] at b8
    exact absurd b8 (by decide)
  · exact absurd (show (0x2E : BitVec 8) ∈ List.replicate 9 0x61 by rw [h]; simp) (by decide)

end Verif.Fat
