import Verif.Flash.Props

/-!
# The flash driver of the STM32F3

Model of lib/parameter_flash_storage/flash_f3.c: half-words are programmed; a byte at an even address is kept in a static
variable until its neighbour comes. Programming a half-word that is not erased does nothing, except if the value is 0 (PGERR of the
reference manual). The flash starts at an even address.
-/

namespace Verif.Flash.F3

open Verif.Crc (Byte crc32)
open Verif.Flash (Flash Err toLe crcInit slice header loadDoc)
open Verif.Flash.Spec (blank)

/-- Flash, and `last_byte` if `write_last_byte` (flash_f3.c:25-26). -/
structure Dev where
  m : Flash
  pend : Option Byte
deriving DecidableEq

/-- `flash_write_half_word`, flash_f3.c:34-43: low byte, high byte. -/
def halfWord (m : Flash) (a : Nat) (lo hi : Byte) : Except Err Flash :=
  if h : a + 1 < m.length then
    if (m[a] = 0xFF#8 ∧ m[a + 1] = 0xFF#8) ∨ (lo = 0 ∧ hi = 0) then .ok ((m.set a lo).set (a + 1) hi) else .ok m
  else .error .outOfBounds

/-- The loop and what follows, flash_f3.c:87-100, from an even address. -/
def pairs : Dev → Nat → List Byte → Except Err Dev
  | s, _, [] => .ok s
  | s, _, [x] => .ok { s with pend := some x }
  | s, a, x :: y :: l => do
    let m ← halfWord s.m a x y
    pairs { s with m := m } (a + 2) l

/-- `flash_write`, flash_f3.c:60-105. Writing nothing at an odd address reads past the data (`len--` of 0). -/
def write (s : Dev) (a : Nat) (d : List Byte) : Except Err Dev :=
  if a % 2 = 1 then
    match d with
    | [] => .error .outOfBounds
    | x :: l => do
      let (lo, s) ← match s.pend with
        | some b => pure (b, { s with pend := none })
        | none => do
          let b ← slice s.m (a - 1) 1
          pure (b.headD 0, s)
      let m ← halfWord s.m (a - 1) lo x
      pairs { s with m := m } (a + 1) l
  else pairs s a d

/-- Chunks written one behind the other, as `cmp_flash_writer` does. -/
def writes : Dev → Nat → List (List Byte) → Except Err Dev
  | s, _, [] => .ok s
  | s, a, d :: ds => do
    let s ← write s a d
    writes s (a + d.length) ds

/-! ## Specification: after writing `d` from an even address on erased flash, the complete half-words are programmed -/

/-- Bytes of `d` that are programmed, and the one that is pending. -/
def whole (d : List Byte) : List Byte := d.take (2 * (d.length / 2))
def rest (d : List Byte) : Option Byte := if d.length % 2 = 1 then d.getLast? else none

/-- `A`, then what is programmed of `d`, then erased flash up to `k` bytes from the start of `d`, then `B`. -/
def After (A d B : List Byte) (k : Nat) (s : Dev) : Prop :=
  s.m = A ++ whole d ++ blank (k - 2 * (d.length / 2)) ++ B ∧ s.pend = rest d

theorem halfWord_blank (A B : List Byte) {k : Nat} (hk : 2 ≤ k) (x y : Byte) :
    halfWord (A ++ blank k ++ B) A.length x y = .ok (A ++ [x, y] ++ blank (k - 2) ++ B) := by
  obtain ⟨j, rfl⟩ : ∃ j, k = j + 2 := ⟨k - 2, by omega⟩
  have e : A ++ blank (j + 2) ++ B = A ++ 0xFF#8 :: 0xFF#8 :: (blank j ++ B) := by
    simp [blank, List.replicate_succ]
  rw [e]
  unfold halfWord
  rw [dif_pos (by simp)]
  have h1 : (A ++ 0xFF#8 :: 0xFF#8 :: (blank j ++ B))[A.length]'(by simp) = 0xFF#8 := by
    rw [List.getElem_append_right (Nat.le_refl _)]; simp
  have h2 : (A ++ 0xFF#8 :: 0xFF#8 :: (blank j ++ B))[A.length + 1]'(by simp) = 0xFF#8 := by
    rw [List.getElem_append_right (Nat.le_add_right _ _)]; simp
  rw [if_pos (.inl ⟨h1, h2⟩)]
  rw [List.set_append_right _ _ (Nat.le_refl _), List.set_append_right _ _ (Nat.le_add_right _ _)]
  simp

theorem pairs_spec : ∀ (n : Nat) (d A B : List Byte) (k : Nat), d.length ≤ n → d.length ≤ k → ∀ p, 
    pairs ⟨A ++ blank k ++ B, p⟩ A.length d =
      .ok ⟨A ++ whole d ++ blank (k - 2 * (d.length / 2)) ++ B, if d.length % 2 = 1 then d.getLast? else p⟩
  | n, [], A, B, k, _, _, p => by simp [pairs, whole]
  | n, [x], A, B, k, _, _, p => by simp [pairs, whole]
  | 0, x :: y :: l, _, _, _, h, _, _ => by simp at h
  | n + 1, x :: y :: l, A, B, k, h, hk, p => by
    simp only [List.length_cons] at h hk
    have hh := halfWord_blank A B (k := k) (by omega) x y
    have ih := pairs_spec n l (A ++ [x, y]) B (k - 2) (by omega) (by omega) p
    rw [List.length_append] at ih
    simp only [pairs, hh, bind, Except.bind]
    rw [show A.length + 2 = A.length + [x, y].length from rfl, ih]
    have h1 : whole (x :: y :: l) = x :: y :: whole l := by
      simp only [whole, List.length_cons]
      rw [show 2 * ((l.length + 1 + 1) / 2) = 2 * (l.length / 2) + 2 by omega]
      rfl
    have h2 : (x :: y :: l).length = l.length + 2 := rfl
    rw [h1, h2, show k - 2 * ((l.length + 2) / 2) = k - 2 - 2 * (l.length / 2) by omega, show (l.length + 2) % 2 = l.length % 2 by omega]
    congr 2
    · simp
    · split
      · rename_i ho
        cases l with
        | nil => simp at ho
        | cons z l => simp [List.getLast?_cons_cons]
      · rfl

/-- One more chunk. -/
theorem write_spec {A d B : List Byte} {k : Nat} {s : Dev} (hA : A.length % 2 = 0) (h : After A d B k s) (x : List Byte) (hx : x ≠ [])
    (hk : d.length + x.length ≤ k) : ∃ s', write s (A.length + d.length) x = .ok s' ∧ After A (d ++ x) B k s' := by
  obtain ⟨m, p⟩ := s
  obtain ⟨hm, hp⟩ := h
  simp only at hm hp
  subst hm hp
  by_cases hodd : d.length % 2 = 1
  · obtain ⟨y, x, rfl⟩ : ∃ y x', x = y :: x' := by cases x with
      | nil => exact absurd rfl hx
      | cons y x => exact ⟨y, x, rfl⟩
    rcases d.eq_nil_or_concat with rfl | ⟨d, b, rfl⟩
    · simp at hodd
    · rw [List.concat_eq_append] at *
      have hdl : (d ++ [b]).length = d.length + 1 := by simp
      rw [hdl] at hodd hk
      simp only [List.length_cons] at hk
      have hw : whole (d ++ [b]) = d := by
        rw [whole, hdl, show 2 * ((d.length + 1) / 2) = d.length by omega, List.take_left]
      have hr : rest (d ++ [b]) = some b := by rw [rest, hdl, if_pos hodd]; simp
      have hh := halfWord_blank (A ++ d) B (k := k - d.length) (by omega) b y
      have hpp := pairs_spec x.length x (A ++ d ++ [b, y]) B (k - d.length - 2) (Nat.le_refl _) (by omega) none
      have hl : (A ++ d ++ [b, y]).length = A.length + (d.length + 1) + 1 := by simp; omega
      rw [hl] at hpp
      rw [List.length_append] at hh
      refine ⟨⟨A ++ d ++ [b, y] ++ whole x ++ blank (k - d.length - 2 - 2 * (x.length / 2)) ++ B,
        if x.length % 2 = 1 then x.getLast? else none⟩, ?_, ?_⟩
      · · simp only [write]
          rw [hdl, if_pos (by omega), hw, hr]
          simp only [bind, Except.bind, pure, Except.pure]
          rw [show A.length + (d.length + 1) - 1 = A.length + d.length by omega, show k - 2 * ((d.length + 1) / 2) = k - d.length by omega, hh]
          exact hpp
      · constructor
        · have h1 : whole (d ++ [b] ++ y :: x) = d ++ [b, y] ++ whole x := by
            have : d ++ [b] ++ y :: x = (d ++ [b, y]) ++ x := by simp
            rw [this, whole, whole]
            have e : 2 * (((d ++ [b, y]) ++ x).length / 2) = (d ++ [b, y]).length + 2 * (x.length / 2) := by
              simp only [List.length_append, List.length_cons, List.length_nil]; omega
            rw [e, List.take_length_add_append]
          simp only [h1]
          rw [show k - 2 * ((d ++ [b] ++ y :: x).length / 2) = k - d.length - 2 - 2 * (x.length / 2) by
            simp only [List.length_append, List.length_cons, List.length_nil]; omega]
          simp only [List.append_assoc]
        · simp only [rest]
          rw [show (d ++ [b] ++ y :: x).length % 2 = x.length % 2 by simp only [List.length_append, List.length_cons, List.length_nil]; omega]
          split
          · rename_i ho
            cases x with
            | nil => simp at ho
            | cons z x =>
              rw [List.getLast?_append, List.getLast?_cons_cons, List.getLast?_eq_some_getLast (List.cons_ne_nil z x)]
              rfl
          · rfl
  · have hw : whole d = d := by rw [whole, show 2 * (d.length / 2) = d.length by omega, List.take_length]
    have hr : rest d = none := by rw [rest, if_neg hodd]
    have hpp := pairs_spec x.length x (A ++ d) B (k - d.length) (Nat.le_refl _) (by omega) none
    rw [List.length_append] at hpp
    refine ⟨⟨A ++ d ++ whole x ++ blank (k - d.length - 2 * (x.length / 2)) ++ B,
      if x.length % 2 = 1 then x.getLast? else none⟩, ?_, ?_⟩
    · · simp only [write]
        rw [if_neg (by omega), hw, hr, show k - 2 * (d.length / 2) = k - d.length by omega]
        exact hpp
    · constructor
      · have h1 : whole (d ++ x) = d ++ whole x := by
          rw [whole, whole, show 2 * ((d ++ x).length / 2) = d.length + 2 * (x.length / 2) by rw [List.length_append]; omega,
            List.take_length_add_append]
        simp only [h1]
        rw [show k - 2 * ((d ++ x).length / 2) = k - d.length - 2 * (x.length / 2) by rw [List.length_append]; omega]
        simp only [List.append_assoc]
      · simp only [rest]
        rw [show (d ++ x).length % 2 = x.length % 2 by rw [List.length_append]; omega]
        split
        · cases x with
          | nil => exact absurd rfl hx
          | cons z x =>
            rw [List.getLast?_append, List.getLast?_eq_some_getLast (List.cons_ne_nil z x)]
            rfl
        · rfl

theorem writes_after {A B : List Byte} {k : Nat} (hA : A.length % 2 = 0) : ∀ (ds : List (List Byte)) (d : List Byte) (s : Dev), After A d B k s →
    (∀ x ∈ ds, x ≠ []) → d.length + ds.flatten.length ≤ k →
    ∃ s', writes s (A.length + d.length) ds = .ok s' ∧ After A (d ++ ds.flatten) B k s'
  | [], d, s, h, _, _ => ⟨s, rfl, by simpa using h⟩
  | x :: ds, d, s, h, hne, hk => by
    rw [List.flatten_cons, List.length_append] at hk
    obtain ⟨s1, h1, h2⟩ := write_spec hA h x (hne x List.mem_cons_self) (by omega)
    obtain ⟨s2, h3, h4⟩ := writes_after hA ds (d ++ x) s1 h2 (fun y hy => hne y (List.mem_cons_of_mem _ hy)) (by rw [List.length_append]; omega)
    refine ⟨s2, ?_, by simpa using h4⟩
    simp only [writes, h1, bind, Except.bind]
    rw [← h3, List.length_append, Nat.add_assoc]

/-- Any sequence of writes one behind the other on erased flash, from an even address and of even total length, programs exactly
the bytes written; nothing is pending. Missing: odd lengths, which lose the last byte (`odd_writes_lose_last`). -/
theorem even_writes_partial (A B : List Byte) (hA : A.length % 2 = 0) (ds : List (List Byte)) (hne : ∀ x ∈ ds, x ≠ []) {k : Nat}
    (hk : ds.flatten.length ≤ k) (heven : ds.flatten.length % 2 = 0) :
    writes ⟨A ++ blank k ++ B, none⟩ A.length ds = .ok ⟨A ++ ds.flatten ++ blank (k - ds.flatten.length) ++ B, none⟩ := by
  obtain ⟨⟨m, p⟩, h1, h2, h3⟩ := writes_after (A := A) (B := B) (k := k) hA ds [] ⟨A ++ blank k ++ B, none⟩ ⟨by simp [whole], rfl⟩ hne (by simpa using hk)
  simp only [List.nil_append, List.length_nil, Nat.add_zero] at h1 h2 h3
  rw [h1, h2, h3]
  simp only [whole, rest, heven]
  rw [show 2 * (ds.flatten.length / 2) = ds.flatten.length by omega, List.take_length]
  rfl

/-- Odd total length followed by the padding of `parameter_flash_storage_save` (parameter_flash_storage.c:93-98, one byte too far): the
last byte is never programmed. -/
theorem odd_writes_lose_last (A B : List Byte) (hA : A.length % 2 = 0) (ds : List (List Byte)) (hne : ∀ x ∈ ds, x ≠ []) {k : Nat}
    (hk : ds.flatten.length + 2 ≤ k) (hodd : ds.flatten.length % 2 = 1) :
    (do
      let s ← writes ⟨A ++ blank k ++ B, none⟩ A.length ds
      write s (A.length + ds.flatten.length + 1) [0x00#8] : Except Err Dev) =
    .ok ⟨A ++ ds.flatten.dropLast ++ [0xFF#8] ++ blank (k - ds.flatten.length) ++ B, some 0x00#8⟩ := by
  obtain ⟨⟨m, p⟩, h1, h2, h3⟩ := writes_after (A := A) (B := B) (k := k) hA ds [] ⟨A ++ blank k ++ B, none⟩ ⟨by simp [whole], rfl⟩ hne
    (by simp only [List.length_nil]; omega)
  simp only [List.nil_append, List.length_nil, Nat.add_zero] at h1 h2 h3
  simp only [h1, bind, Except.bind, write]
  rw [if_neg (by omega)]
  simp only [pairs, h2]
  congr 2
  rw [whole, show 2 * (ds.flatten.length / 2) = ds.flatten.length - 1 by omega, ← List.dropLast_eq_take,
    show k - (ds.flatten.length - 1) = 1 + (k - ds.flatten.length) by omega, Verif.Flash.blank_add]
  simp [blank]

/-- The data, padding and header of `parameter_flash_storage_save` on this driver. -/
def saveAt (s : Dev) (dst : Nat) (chunks : List (List Byte)) : Except Err Dev := do
  let s ← writes s (dst + header) chunks
  let len := chunks.flatten.length
  let (s, len) ← if len % 2 = 1 then do
      let s ← write s (dst + len + header + 1) [0x00#8]
      pure (s, len + 1)
    else pure (s, len)
  let s ← write s dst (toLe (crc32 crcInit (toLe (BitVec.ofNat 32 len))))
  let s ← write s (dst + 4) (toLe (BitVec.ofNat 32 len))
  let data ← slice s.m (dst + header) len
  write s (dst + 8) (toLe (crc32 crcInit data))

/-- `{"ab": 5}` with a 32-bit integer, written as MessagePack does: the block is valid, and holds 255. -/
theorem odd_document_changed : (match saveAt ⟨blank 64, none⟩ 0 [[0x81], [0xA2], [97, 98], [0xD2], [0, 0, 0, 5]] with
    | .ok s => (match loadDoc s.m with
      | .ok (some d) => d == [0x81, 0xA2, 97, 98, 0xD2, 0, 0, 0, 255, 255]
      | _ => false)
    | _ => false : Bool) = true := by decide +kernel

/-- An even document is unchanged. -/
example : (match saveAt ⟨blank 64, none⟩ 0 [[0x81], [0xA1], [97], [0xD2], [0, 0, 0, 5]] with
    | .ok s => (match loadDoc s.m with
      | .ok (some d) => d == [0x81, 0xA1, 97, 0xD2, 0, 0, 0, 5]
      | _ => false)
    | _ => false : Bool) = true := by decide +kernel

/-- The hypotheses of `even_writes_partial`. -/
example : ([[0x81], [0xA1], [97], [0xD2], [0, 0, 0, 5]] : List (List Byte)).flatten.length = 8 ∧
    ∀ x ∈ ([[0x81], [0xA1], [97], [0xD2], [0, 0, 0, 5]] : List (List Byte)), x ≠ [] := by decide

end Verif.Flash.F3
