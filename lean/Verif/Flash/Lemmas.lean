import Verif.Flash.Spec
import Verif.Crc.Props

/-!
# Lemmas about blocks
-/

namespace Verif.Flash

open Verif.Crc (Byte crc32 crc32_inj)
open Spec (head block blank Quiet Tail Stored used)

theorem toLe_length (x : BitVec 32) : (toLe x).length = 4 := rfl

theorem fromLe_toLe (x : BitVec 32) : fromLe (toLe x) = x := by
  have := x.isLt
  apply BitVec.eq_of_toNat_eq
  simp only [toLe, fromLe, BitVec.toNat_ofNat]
  omega

theorem toLe_fromLe : ∀ {l : List Byte}, l.length = 4 → toLe (fromLe l) = l
  | [a, b, c, d], _ => by
    have := a.isLt; have := b.isLt; have := c.isLt; have := d.isLt
    simp only [toLe, fromLe, BitVec.toNat_ofNat, List.cons.injEq, and_true]
    refine ⟨?_, ?_, ?_, ?_⟩ <;> apply BitVec.eq_of_toNat_eq <;> simp only [BitVec.toNat_ofNat] <;> omega

theorem toLe_inj {x y : BitVec 32} (h : toLe x = toLe y) : x = y := by
  rw [← fromLe_toLe x, h, fromLe_toLe]

theorem head_length (d : List Byte) : (head d).length = 12 := rfl

theorem block_length (d : List Byte) : (block d).length = 12 + d.length := by
  rw [block, List.length_append, head_length]

theorem slice_at (A x B : List Byte) {p n : Nat} (hp : p = A.length) (hn : n = x.length) : slice (A ++ x ++ B) p n = .ok x := by
  subst hp hn
  unfold slice
  rw [if_pos (by simp only [List.length_append]; omega), List.append_assoc, List.drop_left, List.take_left]

theorem word_at (A B : List Byte) (x : BitVec 32) {p : Nat} (hp : p = A.length) : word (A ++ toLe x ++ B) p = .ok x := by
  simp only [word, slice_at A (toLe x) B hp (toLe_length x).symm, bind, Except.bind, pure, Except.pure, fromLe_toLe]

theorem word_at' (A w B : List Byte) (hw : w.length = 4) {p : Nat} (hp : p = A.length) : word (A ++ w ++ B) p = .ok (fromLe w) := by
  simp only [word, slice_at A w B hp hw.symm, bind, Except.bind, pure, Except.pure]

/-- A header with the right checksum of the length `d.length`. -/
theorem isValid_len (A d B : List Byte) (c : BitVec 32) {p : Nat} (hp : p = A.length) (hd : d.length < 2 ^ 32) :
    isValid (A ++ (toLe (crc32 crcInit (toLe (BitVec.ofNat 32 d.length))) ++ toLe (BitVec.ofNat 32 d.length) ++ toLe c) ++ d ++ B) p =
      .ok (c == crc32 crcInit d) := by
  subst hp
  generalize hl : BitVec.ofNat 32 d.length = n
  have hn : n.toNat = d.length := by subst hl; rw [BitVec.toNat_ofNat]; omega
  have e1 : word (A ++ (toLe (crc32 crcInit (toLe n)) ++ toLe n ++ toLe c) ++ d ++ B) A.length = .ok (crc32 crcInit (toLe n)) := by
    rw [← word_at A (toLe n ++ toLe c ++ d ++ B) _ rfl]; simp only [List.append_assoc]
  have e2 : word (A ++ (toLe (crc32 crcInit (toLe n)) ++ toLe n ++ toLe c) ++ d ++ B) (A.length + 4) = .ok n := by
    rw [← word_at (A ++ toLe (crc32 crcInit (toLe n))) (toLe c ++ d ++ B) _ (p := A.length + 4) (by rw [List.length_append, toLe_length])]
    simp only [List.append_assoc]
  have e3 : word (A ++ (toLe (crc32 crcInit (toLe n)) ++ toLe n ++ toLe c) ++ d ++ B) (A.length + 8) = .ok c := by
    rw [← word_at (A ++ toLe (crc32 crcInit (toLe n)) ++ toLe n) (d ++ B) _ (p := A.length + 8)
      (by simp only [List.length_append, toLe_length])]
    simp only [List.append_assoc]
  have e4 : slice (A ++ (toLe (crc32 crcInit (toLe n)) ++ toLe n ++ toLe c) ++ d ++ B) (A.length + 12) n.toNat = .ok d := by
    rw [hn, ← slice_at (A ++ (toLe (crc32 crcInit (toLe n)) ++ toLe n ++ toLe c)) d B (p := A.length + 12)
      (by simp only [List.length_append, toLe_length]) rfl]
  simp only [isValid, e1, e2, e3, e4, bind, Except.bind, pure, Except.pure, bne_self_eq_false]
  rfl

theorem isValid_block (A d B : List Byte) {p : Nat} (hp : p = A.length) (hd : d.length < 2 ^ 32) :
    isValid (A ++ block d ++ B) p = .ok true := by
  have := isValid_len A d B (crc32 crcInit d) hp hd
  rw [beq_self_eq_true] at this
  rw [← this, block, head]
  simp only [List.append_assoc]

/-- A header that announces nothing. -/
theorem isValid_quiet (A w B : List Byte) {p : Nat} (hp : p = A.length) (hw : w.length = 8) (hq : Quiet w) :
    isValid (A ++ w ++ B) p = .ok false := by
  subst hp
  have hsplit : w = w.take 4 ++ w.drop 4 := (List.take_append_drop 4 w).symm
  have h1 : (w.take 4).length = 4 := by rw [List.length_take]; omega
  have h2 : (w.drop 4).length = 4 := by rw [List.length_drop]; omega
  have e1 : word (A ++ w ++ B) A.length = .ok (fromLe (w.take 4)) := by
    rw [← word_at' A (w.take 4) (w.drop 4 ++ B) h1 rfl]
    congr 1
    rw [List.append_assoc A (w.take 4), ← List.append_assoc (w.take 4), ← hsplit, List.append_assoc]
  have e2 : word (A ++ w ++ B) (A.length + 4) = .ok (fromLe (w.drop 4)) := by
    rw [← word_at' (A ++ w.take 4) (w.drop 4) B h2 (p := A.length + 4) (by rw [List.length_append, h1])]
    congr 1
    rw [List.append_assoc A (w.take 4), ← hsplit]
  have hne := hq (fromLe (w.take 4)) (fromLe (w.drop 4)) (by rw [toLe_fromLe h1, toLe_fromLe h2]; exact hsplit)
  simp only [isValid, e1, e2, bind, Except.bind, pure, Except.pure]
  rw [if_pos (by simpa using hne)]

theorem getLength_block (A d B : List Byte) {p : Nat} (hp : p = A.length) (hd : d.length < 2 ^ 32) :
    getLength (A ++ block d ++ B) p = .ok d.length := by
  subst hp
  have e := slice_at A (toLe (crc32 crcInit (toLe (BitVec.ofNat 32 d.length))) ++ toLe (BitVec.ofNat 32 d.length))
    (toLe (crc32 crcInit d) ++ d ++ B) (p := A.length) (n := 8) rfl rfl
  have e' : A ++ block d ++ B = A ++ (toLe (crc32 crcInit (toLe (BitVec.ofNat 32 d.length))) ++ toLe (BitVec.ofNat 32 d.length)) ++
    (toLe (crc32 crcInit d) ++ d ++ B) := by rw [block, head]; simp only [List.append_assoc]
  rw [e']
  simp only [getLength, e, bind, Except.bind, pure, Except.pure]
  rw [List.drop_left' (toLe_length _), fromLe_toLe, BitVec.toNat_ofNat, Nat.mod_eq_of_lt hd]

/-- The walk over the blocks of `ds`, starting at the block of `x`. -/
theorem findLastUsed_blocks (ds : List (List Byte)) : ∀ (A R : List Byte) (f : Nat) (last : Option Nat), (∀ d ∈ ds, d.length < 2 ^ 32) →
    findLastUsed (f + ds.length) (A ++ ds.flatMap block ++ R) A.length last =
      findLastUsed f (A ++ ds.flatMap block ++ R) (A ++ ds.flatMap block).length
        (match ds.getLast? with | none => last | some d => some ((A ++ ds.flatMap block).length - (block d).length)) := by
  induction ds with
  | nil => intro A R f last _; simp
  | cons d ds ih =>
    intro A R f last hd
    have h1 := isValid_block A d (ds.flatMap block ++ R) rfl (hd d List.mem_cons_self)
    have h2 := getLength_block A d (ds.flatMap block ++ R) rfl (hd d List.mem_cons_self)
    have e : A ++ (d :: ds).flatMap block ++ R = A ++ block d ++ (ds.flatMap block ++ R) := by
      rw [List.flatMap_cons]; simp only [List.append_assoc]
    rw [← e] at h1 h2
    rw [List.length_cons, ← Nat.add_assoc, findLastUsed]
    simp only [h1, h2, bind, Except.bind, if_true]
    have ih' := ih (A ++ block d) R f (some A.length) (fun x hx => hd x (List.mem_cons_of_mem _ hx))
    have e' : A ++ block d ++ ds.flatMap block ++ R = A ++ (d :: ds).flatMap block ++ R := by
      rw [List.flatMap_cons]; simp only [List.append_assoc]
    rw [e'] at ih'
    have e'' : (A ++ block d).length = A.length + d.length + header := by
      rw [List.length_append, block_length, header]; omega
    rw [← e'', ih']
    congr 1
    · rw [List.flatMap_cons]; simp only [List.append_assoc]
    · rw [List.getLast?_cons]
      cases hl : ds.getLast? with
      | none =>
        rw [List.getLast?_eq_none_iff] at hl
        subst hl
        simp
      | some x => simp [List.flatMap_cons]

theorem findFirstFree_blocks (ds : List (List Byte)) : ∀ (A R : List Byte) (f : Nat), (∀ d ∈ ds, d.length < 2 ^ 32) →
    findFirstFree (f + ds.length) (A ++ ds.flatMap block ++ R) A.length =
      findFirstFree f (A ++ ds.flatMap block ++ R) (A ++ ds.flatMap block).length := by
  induction ds with
  | nil => intro A R f _; simp
  | cons d ds ih =>
    intro A R f hd
    have h1 := isValid_block A d (ds.flatMap block ++ R) rfl (hd d List.mem_cons_self)
    have h2 := getLength_block A d (ds.flatMap block ++ R) rfl (hd d List.mem_cons_self)
    have e : A ++ (d :: ds).flatMap block ++ R = A ++ block d ++ (ds.flatMap block ++ R) := by
      rw [List.flatMap_cons]; simp only [List.append_assoc]
    rw [← e] at h1 h2
    rw [List.length_cons, ← Nat.add_assoc, findFirstFree]
    simp only [h1, h2, bind, Except.bind, if_true]
    have ih' := ih (A ++ block d) R f (fun x hx => hd x (List.mem_cons_of_mem _ hx))
    have e' : A ++ block d ++ ds.flatMap block ++ R = A ++ (d :: ds).flatMap block ++ R := by
      rw [List.flatMap_cons]; simp only [List.append_assoc]
    rw [e'] at ih'
    have e'' : (A ++ block d).length = A.length + d.length + header := by
      rw [List.length_append, block_length, header]; omega
    rw [← e'', ih']
    congr 1
    rw [List.flatMap_cons]; simp only [List.append_assoc]

theorem blocks_long (ds : List (List Byte)) : ds.length ≤ (ds.flatMap block).length := by
  induction ds with
  | nil => simp
  | cons d ds ih => rw [List.flatMap_cons, List.length_append, block_length, List.length_cons]; omega

theorem blank_length (k : Nat) : (blank k).length = k := List.length_replicate

theorem blank_add (j k : Nat) : blank (j + k) = blank j ++ blank k := (List.replicate_append_replicate ..).symm

/-- Erased flash followed by `tail` announces nothing. -/
theorem blank_tail {k : Nat} {tail : List Byte} (ht : Tail tail) :
    ∃ w B, blank k ++ tail = w ++ B ∧ w.length = 8 ∧ Quiet w := by
  refine ⟨blank (8 - (8 - k)) ++ tail.take (8 - k), blank (k - 8) ++ tail.drop (8 - k), ?_, ?_, ht.2 _ (by omega)⟩
  · by_cases h : k ≤ 8
    · rw [show 8 - (8 - k) = k by omega, show k - 8 = 0 by omega]
      simp [blank]
    · rw [show 8 - k = 0 by omega, show k = (8 - 0) + (k - 8) by omega, blank_add]
      simp
  · have := ht.1
    rw [List.length_append, blank_length, List.length_take]; omega

/-- Nothing valid at the erased part. -/
theorem isValid_blank (A : List Byte) (k : Nat) {tail : List Byte} (ht : Tail tail) {p : Nat} (hp : p = A.length) :
    isValid (A ++ blank k ++ tail) p = .ok false := by
  obtain ⟨w, B, h1, h2, h3⟩ := blank_tail (k := k) ht
  rw [List.append_assoc, h1, ← List.append_assoc]
  exact isValid_quiet A w B hp h2 h3

/-- Walks over the blocks of `ds` followed by something not valid. -/
theorem walk_stop {ds : List (List Byte)} {R : List Byte} (hd : ∀ d ∈ ds, d.length < 2 ^ 32)
    (hR : isValid (ds.flatMap block ++ R) (used ds) = .ok false) :
    findLastUsed ((ds.flatMap block ++ R).length + 1) (ds.flatMap block ++ R) 0 none =
        .ok (ds.getLast?.map (fun d => used ds - (block d).length)) ∧
    findFirstFree ((ds.flatMap block ++ R).length + 1) (ds.flatMap block ++ R) 0 = .ok (used ds) := by
  have hl := blocks_long ds
  obtain ⟨f, hf⟩ : ∃ f, (ds.flatMap block ++ R).length + 1 = (f + 1) + ds.length :=
    ⟨(ds.flatMap block ++ R).length - ds.length, by rw [List.length_append]; omega⟩
  have e1 := findLastUsed_blocks ds [] R (f + 1) none hd
  have e2 := findFirstFree_blocks ds [] R (f + 1) hd
  simp only [List.nil_append, List.length_nil] at e1 e2
  rw [hf, e1, e2]
  simp only [findLastUsed, findFirstFree, bind, Except.bind]
  rw [show (ds.flatMap block).length = used ds from rfl, hR]
  constructor
  · simp only [pure, Except.pure, Bool.false_eq_true, if_false]
    cases ds.getLast? <;> rfl
  · rfl

/-- Loading finds the last document. -/
theorem loadDoc_stop {ds : List (List Byte)} {R : List Byte} (hd : ∀ d ∈ ds, d.length < 2 ^ 32)
    (hR : isValid (ds.flatMap block ++ R) (used ds) = .ok false) : loadDoc (ds.flatMap block ++ R) = .ok ds.getLast? := by
  have h1 := (walk_stop hd hR).1
  simp only [loadDoc, h1, bind, Except.bind]
  cases hl : ds.getLast? with
  | none => rfl
  | some d =>
    obtain ⟨ds', rfl⟩ : ∃ ds', ds = ds' ++ [d] := by
      obtain ⟨h, e⟩ := List.getLast?_eq_some_iff.mp hl
      exact ⟨h, e⟩
    have hdl := hd d (by simp)
    have hu : used (ds' ++ [d]) - (block d).length = (ds'.flatMap block).length := by
      simp [used, List.flatMap_append]
    have e : (ds' ++ [d]).flatMap block ++ R = ds'.flatMap block ++ block d ++ R := by
      simp [List.flatMap_append]
    simp only [Option.map_some, hu]
    rw [e, getLength_block _ _ _ rfl hdl]
    simp only
    have e2 : ds'.flatMap block ++ block d ++ R = (ds'.flatMap block ++ head d) ++ d ++ R := by
      rw [block]; simp only [List.append_assoc]
    rw [e2, slice_at (ds'.flatMap block ++ head d) d R (by rw [List.length_append, head_length, header]) rfl]
    rfl

/-! ## Programming -/

theorem exec_append (sec : Nat) : ∀ (a b : List Ev) (m : Flash), exec sec m (a ++ b) = (exec sec m a).bind (fun m => exec sec m b)
  | [], b, m => rfl
  | e :: a, b, m => by
    simp only [List.cons_append, exec, bind, Except.bind]
    cases e.apply sec m with
    | error _ => rfl
    | ok m => exact exec_append sec a b m

theorem progs_append (a : Nat) (d e : List Byte) : progs a (d ++ e) = progs a d ++ progs (a + d.length) e := by
  induction d generalizing a with
  | nil => rfl
  | cons x d ih =>
    simp only [List.cons_append, progs, ih, List.length_cons]
    rw [show a + 1 + d.length = a + (d.length + 1) by omega]

theorem progs_take (a : Nat) (d : List Byte) (j : Nat) : (progs a d).take j = progs a (d.take j) := by
  induction d generalizing a j with
  | nil => simp [progs]
  | cons x d ih =>
    cases j with
    | zero => rfl
    | succ j => simp [progs, ih]

theorem progs_length (a : Nat) (d : List Byte) : (progs a d).length = d.length := by
  induction d generalizing a with
  | nil => rfl
  | cons x d ih => simp [progs, ih]

/-- Programming erased bytes. -/
theorem exec_progs (sec : Nat) (d : List Byte) : ∀ (A B : List Byte), exec sec (A ++ blank d.length ++ B) (progs A.length d) = .ok (A ++ d ++ B) := by
  induction d with
  | nil => intro A B; simp [blank, progs, exec]
  | cons x d ih =>
    intro A B
    have e : A ++ blank (x :: d).length ++ B = A ++ 0xFF#8 :: (blank d.length ++ B) := by
      simp [blank, List.replicate_succ]
    rw [e]
    simp only [progs, exec, Ev.apply, bind, Except.bind]
    rw [dif_pos (by simp)]
    simp only [List.getElem_append_right (Nat.le_refl _), Nat.sub_self, List.getElem_cons_zero, List.set_append_right _ _ (Nat.le_refl _),
      List.set_cons_zero]
    have := ih (A ++ [x]) B
    rw [List.length_append, List.length_singleton] at this
    have e2 : A ++ [x] ++ blank d.length ++ B = A ++ (0xFF#8 &&& x) :: (blank d.length ++ B) := by
      have : 0xFF#8 &&& x = x := by
        rw [show 0xFF#8 = BitVec.allOnes 8 from rfl, BitVec.allOnes_and]
      rw [this]; simp
    rw [e2] at this
    rw [this]; simp

/-- Programming part of an erased area. -/
theorem exec_progs' (sec : Nat) (A d B : List Byte) {k a : Nat} (ha : a = A.length) (hk : d.length ≤ k) :
    exec sec (A ++ blank k ++ B) (progs a d) = .ok (A ++ d ++ blank (k - d.length) ++ B) := by
  subst ha
  have := exec_progs sec d A (blank (k - d.length) ++ B)
  rw [show A ++ blank d.length ++ (blank (k - d.length) ++ B) = A ++ blank k ++ B by
    rw [show k = d.length + (k - d.length) by omega, blank_add]; simp [blank_length]] at this
  rw [this]
  simp only [List.append_assoc]

end Verif.Flash
