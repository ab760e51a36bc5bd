import Verif.Flash.Props
import Verif.Msgpack.Props

/-!
# Parameter trees in flash

`parameter_flash_storage_save` and `parameter_flash_storage_load` with the model of the MessagePack writer and reader.
-/

namespace Verif.Flash

open Verif.Crc (Byte)
open Verif.Param (Heap Op Proper Inv Distinct run Str AVal nss pars subs parsIn valueOf nsIdOf parIdOf nsOf Under)
open Spec (block blank Tail Stored InSector Serialises)

/-- `parameter_msgpack_write_cmp` with `cmp_flash_writer` (parameter_flash_storage.c:14-24, 71-81). The writer accepts
and refuses exactly like the memory writer of `CmpMem` and puts the accepted bytes one behind the other, so the bytes programmed
are those the memory writer puts in a buffer of the same size. The error callback `err_mark_false` (:33-40) clears `success`. -/
def serTree (W fuel : Nat) (h : Heap) (n : Nat) (r : Nat) : List Byte × Bool :=
  match Msgpack.write W fuel h n (List.replicate r 0) with
  | .ok (m, k) => ((m.buf.take m.index).map (BitVec.ofNat 8), k == 0)
  | .error _ => ([], false)

inductive LoadErr where
  | flash (e : Err)
  | param (e : Param.Err)

/-- `parameter_flash_storage_load`, parameter_flash_storage.c:105-128. -/
def load (W fuel : Nat) (en : Msgpack.Env) (h : Heap) (n : Nat) (m : Flash) : Except LoadErr (Bool × Heap) :=
  match loadDoc m with
  | .error e => .error (.flash e)
  | .ok none => .ok (false, h)
  | .ok (some d) =>
    match Msgpack.read W fuel en h n (d.map BitVec.toNat) with
    | .error e => .error (.param e)
    | .ok (res, s) => .ok (res && s.errs == 0, s.heap)

/-- Names and strings are made of bytes. -/
def Bytes (l : List Op) : Prop :=
  (∀ m ∈ nss l, ∀ x ∈ nsIdOf m l, x < 256) ∧ (∀ p ∈ pars l, ∀ x ∈ parIdOf p l, x < 256) ∧
  (∀ p s, valueOf p l = some (.string s) → ∀ x ∈ s, x < 256)

theorem be_bytes : ∀ (k x : Nat), ∀ y ∈ Msgpack.Spec.be k x, y < 256
  | 0, _, y, h => by cases h
  | k + 1, x, y, h => by
    rcases List.mem_append.mp h with h | h
    · exact be_bytes k _ y h
    · rw [List.mem_singleton.mp h]; omega

theorem str_bytes {s : Str} (h : ∀ x ∈ s, x < 256) : ∀ y ∈ Msgpack.Spec.str s, y < 256 := by
  intro y hy
  unfold Msgpack.Spec.str at hy
  rcases List.mem_append.mp hy with hy | hy
  · split at hy
    · rw [List.mem_singleton.mp hy]; omega
    · split at hy
      · rcases List.mem_cons.mp hy with rfl | hy
        · omega
        · exact be_bytes _ _ _ hy
      · split at hy
        · rcases List.mem_cons.mp hy with rfl | hy
          · omega
          · exact be_bytes _ _ _ hy
        · rcases List.mem_cons.mp hy with rfl | hy
          · omega
          · exact be_bytes _ _ _ hy
  · exact h y hy

theorem tag_bytes {t k x : Nat} (ht : t < 256) : ∀ y ∈ t :: Msgpack.Spec.be k x, y < 256 := by
  intro y hy
  rcases List.mem_cons.mp hy with rfl | hy
  · exact ht
  · exact be_bytes _ _ _ hy

theorem map_bytes (n : Nat) : ∀ y ∈ Msgpack.Spec.map n, y < 256 := by
  intro y hy
  unfold Msgpack.Spec.map at hy
  split at hy
  · rw [List.mem_singleton.mp hy]; omega
  · split at hy <;> exact tag_bytes (by omega) y hy

theorem array_bytes (n : Nat) : ∀ y ∈ Msgpack.Spec.array n, y < 256 := by
  intro y hy
  unfold Msgpack.Spec.array at hy
  split at hy
  · rw [List.mem_singleton.mp hy]; omega
  · split at hy <;> exact tag_bytes (by omega) y hy

theorem floats_bytes (v : List Param.W32) : ∀ y ∈ Msgpack.Spec.floats v, y < 256 := by
  intro y hy
  rcases List.mem_append.mp hy with hy | hy
  · exact array_bytes _ y hy
  · obtain ⟨w, _, hw⟩ := List.mem_flatMap.mp hy
    exact tag_bytes (by omega) y hw

theorem value_bytes {v : AVal} (h : ∀ s, v = .string s → ∀ x ∈ s, x < 256) : ∀ y ∈ Msgpack.Spec.value v, y < 256 := by
  intro y hy
  cases v with
  | scalar w => exact tag_bytes (by omega) y hy
  | integer w => exact tag_bytes (by omega) y hy
  | boolean b =>
    simp only [Msgpack.Spec.value, Msgpack.Spec.bool, List.mem_singleton] at hy
    subst hy; split <;> omega
  | vector v => exact floats_bytes v y hy
  | varVector v => exact floats_bytes v y hy
  | string s => exact str_bytes (h s rfl) y hy

theorem doc_bytes {l : List Op} (hb : Bytes l) (hp : Proper l) : ∀ (f n : Nat), n ∈ nss l → ∀ y ∈ Msgpack.Spec.tree l f n, y < 256
  | 0, _, _, y, h => by cases h
  | f + 1, n, hn, y, h => by
    simp only [Msgpack.Spec.tree] at h
    rcases List.mem_append.mp h with h | h
    · rcases List.mem_append.mp h with h | h
      · exact map_bytes _ y h
      · obtain ⟨m, hm, hy⟩ := List.mem_flatMap.mp h
        have hmn := Param.subs_nss hm
        rcases List.mem_append.mp hy with hy | hy
        · exact str_bytes (hb.1 m hmn) y hy
        · exact doc_bytes hb hp f m hmn y hy
    · obtain ⟨p, hpm, hy⟩ := List.mem_flatMap.mp h
      unfold Msgpack.Spec.par at hy
      cases hv : valueOf p l with
      | none => rw [hv] at hy; cases hy
      | some v =>
        rw [hv] at hy
        rcases List.mem_append.mp hy with hy | hy
        · exact str_bytes (hb.2.1 p (Param.parsIn_pars hpm)) y hy
        · exact value_bytes (fun s hs => hb.2.2 p s (by rw [hv, hs])) y hy

theorem bytes_round {d : List Nat} (h : ∀ x ∈ d, x < 256) : (d.map (BitVec.ofNat 8)).map BitVec.toNat = d := by
  rw [List.map_map]
  conv => rhs; rw [← List.map_id d]
  apply List.map_congr_left
  intro x hx
  simp only [Function.comp, BitVec.toNat_ofNat, id]
  have := h x hx
  omega

/-- The bytes of the document of a tree. -/
def docOf (l : List Op) (n : Nat) : List Byte := (Msgpack.Spec.doc l n).map (BitVec.ofNat 8)

section

variable {W B fuel : Nat} {h0 h : Heap} {l : List Op} {n : Nat}

/-- With room the serialiser writes the document, without it reports an error, if errors are reported (`hrep`). -/
theorem serTree_serialises (hp : Proper l) (hf : l.length ≤ fuel) (hr : run fuel h0 l = .ok h) (hs : Msgpack.Spec.Sized l B)
    (hB : 65536 ≤ B) (hn : n ∈ nss l) {N : Nat} (hW : N + B < W) (hN : (Msgpack.Spec.doc l n).length ≤ N)
    (hrep : ∀ r m k, 0 < r → r < (Msgpack.Spec.doc l n).length → Msgpack.write W fuel h n (List.replicate r 0) = .ok (m, k) → k ≠ 0) :
    Serialises N (serTree W fuel h n) (docOf l n) := by
  constructor
  · intro r hrN hle
    rw [docOf, List.length_map] at hle
    have := Msgpack.write_complete hp hf hr hs hB hn (W := W) (buf := List.replicate r 0) (by rw [List.length_replicate]; omega)
      (by rw [List.length_replicate]; omega)
    simp only [serTree, this, docOf, List.take_left, beq_self_eq_true]
  · intro r hrN h0 hlt
    rw [docOf, List.length_map] at hlt
    obtain ⟨m, k, h1, h2, h3⟩ := Msgpack.write_safe hp hf hr hs hB hn (W := W) (buf := List.replicate r 0) (by rw [List.length_replicate]; omega)
    have hk := hrep r m k (by omega) (by omega) h1
    simp only [serTree, h1]
    refine ⟨by simpa using hk, ?_⟩
    rw [List.length_map, List.length_take]
    rw [List.length_replicate] at h3
    omega

/-- Errors are reported when the namespace has no sub-namespaces. -/
theorem flat_reports (hp : Proper l) (hf : l.length ≤ fuel) (hr : run fuel h0 l = .ok h) (hs : Msgpack.Spec.Sized l B)
    (hB : 65536 ≤ B) (hn : n ∈ nss l) {N : Nat} (hW : N + B < W) (hN : (Msgpack.Spec.doc l n).length ≤ N) (hflat : subs n l = []) :
    ∀ r m k, 0 < r → r < (Msgpack.Spec.doc l n).length → Msgpack.write W fuel h n (List.replicate r 0) = .ok (m, k) → k ≠ 0 := by
  intro r m k h0 hlt hw hk
  have := (Msgpack.error_iff_too_small_partial hp hf hr hs hB hn (W := W) (buf := List.replicate r 0) (by rw [List.length_replicate]; omega) hflat
    (by intro h; have := congrArg List.length h; rw [List.length_replicate] at this; simp at this; omega) hw).mp hk
  rw [List.length_replicate] at this
  omega

/-- If the last block is the document of `l` (possibly followed by padding), loading it into a tree with the same declarations
gives every defined parameter its value. -/
theorem load_restores {en : Msgpack.Env} {h0' h' : Heap} {l' : List Op} {m : Flash} {pad : List Byte}
    (halloc : ∀ k, en.alloc k = true) (hp : Proper l) (hp' : Proper l') (hsame : Msgpack.Spec.SameDecls l l') (hd : Distinct l)
    (hnm : Msgpack.Spec.Named l) (hs : Msgpack.Spec.Sized l B) (hroom : Msgpack.Spec.RoomForNul l) (hdim : Msgpack.Spec.Dims l)
    (hb : Bytes l) (hB : 65536 ≤ B) (hn : n ∈ nss l) (hr' : run fuel h0' l' = .ok h')
    (hf : l'.length + (Msgpack.Spec.doc l n).length ≤ fuel) (hW : (docOf l n ++ pad).length + B < W)
    (hm : loadDoc m = .ok (some (docOf l n ++ pad))) :
    ∃ hN, load W fuel en h' n m = .ok (true, hN) ∧
      (∀ p v, p ∈ pars l → Under l n (nsOf p l) → valueOf p l = some v → Param.read hN p = .ok v) ∧
      (∀ p v, ¬(Under l n (nsOf p l) ∧ valueOf p l ≠ none) → valueOf p l' = some v → Param.read hN p = .ok v) := by
  have hbytes := bytes_round (d := Msgpack.Spec.doc l n) (doc_bytes hb hp _ n hn)
  obtain ⟨s, h1, h2, h3, h4⟩ := Msgpack.load_saved (W := W) (B := B) (doc := (docOf l n ++ pad).map BitVec.toNat) halloc hp hp' hsame hd hnm hs
    hroom hdim hB hn hr' hf (by rw [List.length_map]; exact hW) (by
      rw [List.map_append, docOf, hbytes]; exact List.prefix_append _ _)
  refine ⟨s.heap, ?_, h3, h4⟩
  simp only [load, hm, h1, h2]
  rfl

/-- C24 for documents of even length: after any number of saves, the last one of the tree `l`, loading into a tree with the
same declarations and any values restores `l`. -/
theorem restore_last_save_partial {en : Msgpack.Env} {h0' h' : Heap} {l' : List Op} {N sec : Nat} {tail : List Byte} {m : Flash}
    {ds : List (List Byte)} {xs : List ((Nat → List Byte × Bool) × List Byte)}
    (hsec : InSector N sec tail) (ht : Tail tail) (hm : Stored N tail m ds)
    (hxs : ∀ x ∈ xs, Serialises N x.1 x.2 ∧ x.2 ≠ [] ∧ x.2.length % 2 = 0 ∧ 12 + x.2.length ≤ N ∧ x.2.length < 2 ^ 32)
    (halloc : ∀ k, en.alloc k = true) (hp : Proper l) (hp' : Proper l') (hsame : Msgpack.Spec.SameDecls l l') (hd : Distinct l)
    (hnm : Msgpack.Spec.Named l) (hs : Msgpack.Spec.Sized l B) (hroom : Msgpack.Spec.RoomForNul l) (hdim : Msgpack.Spec.Dims l)
    (hb : Bytes l) (hB : 65536 ≤ B) (hn : n ∈ nss l) (hfuel : l.length ≤ fuel) (hr : run fuel h0 l = .ok h) (hr' : run fuel h0' l' = .ok h')
    (hf : l'.length + (Msgpack.Spec.doc l n).length ≤ fuel) (hW : N + B < W) (hN : 12 + (docOf l n).length ≤ N) (h32 : N < 2 ^ 32)
    (heven : (docOf l n).length % 2 = 0)
    (hrep : ∀ r m k, 0 < r → r < (Msgpack.Spec.doc l n).length → Msgpack.write W fuel h n (List.replicate r 0) = .ok (m, k) → k ≠ 0) :
    ∃ m' hN, saves sec N (xs.map Prod.fst ++ [serTree W fuel h n]) m = .ok m' ∧ load W fuel en h' n m' = .ok (true, hN) ∧
      (∀ p v, p ∈ pars l → Under l n (nsOf p l) → valueOf p l = some v → Param.read hN p = .ok v) ∧
      (∀ p v, ¬(Under l n (nsOf p l) ∧ valueOf p l ≠ none) → valueOf p l' = some v → Param.read hN p = .ok v) := by
  have hdl : (docOf l n).length = (Msgpack.Spec.doc l n).length := by rw [docOf, List.length_map]
  have hne : docOf l n ≠ [] := by
    intro h
    have h1 := Msgpack.doc_eq hp hn
    rw [docOf, List.map_eq_nil_iff] at h
    rw [h] at h1
    have := congrArg List.length h1
    simp only [List.length_append, List.length_nil] at this
    have := Msgpack.map_pos (Msgpack.Spec.entries l n)
    omega
  have hser := serTree_serialises hp hfuel hr hs hB hn hW (by omega) hrep
  obtain ⟨m', h1, h2⟩ := load_last_save_partial hsec ht (xs ++ [(serTree W fuel h n, docOf l n)]) m ds hm (by
    intro x hx
    rcases List.mem_append.mp hx with hx | hx
    · exact hxs x hx
    · rw [List.mem_singleton.mp hx]
      exact ⟨hser, hne, heven, hN, by show (docOf l n).length < _; omega⟩)
  rw [List.getLast?_concat] at h2
  rw [List.map_append] at h1
  obtain ⟨hN', h3, h4⟩ := load_restores (W := W) (m := m') (pad := []) halloc hp hp' hsame hd hnm hs hroom hdim hb hB hn hr' hf
    (by rw [List.append_nil]; omega) (by rw [List.append_nil]; exact h2)
  exact ⟨m', hN', h1, h3, h4⟩

end

theorem demo_bytes : Bytes Param.demo := by
  refine ⟨?_, ?_, ?_⟩
  · intro m hm
    simp only [Param.demo, nss, List.mem_cons, List.not_mem_nil, or_false] at hm
    rcases hm with rfl | rfl <;> decide
  · intro p hp
    simp only [Param.demo, pars, List.mem_cons, List.not_mem_nil, or_false] at hp
    rcases hp with rfl | rfl <;> decide
  · intro p s hv x hx
    rcases Msgpack.demo_value hv with ⟨_, h⟩ | ⟨_, h⟩
    · injection h with h
      subst h
      simp at hx; omega
    · cases h

theorem demo_reports {h : Heap} (hr : run 30 Param.blank Param.demo = .ok h) (r : Nat) (m : CmpMem.Mem) (k : Nat) (h0 : 0 < r) (hlt : r < 16)
    (hw : Msgpack.write 4294967296 30 h 0 (List.replicate r 0) = .ok (m, k)) : k ≠ 0 := by
  have key : ((List.range 16).all (fun r => r == 0 || (match run 30 Param.blank Param.demo with
      | .ok h => (match Msgpack.write 4294967296 30 h 0 (List.replicate r 0) with
        | .ok (_, k) => k != 0
        | _ => true)
      | _ => true))) = true := by decide +kernel
  have := List.all_eq_true.mp key r (by simpa using hlt)
  rw [hr] at this
  simp only [hw] at this
  rcases Nat.eq_zero_or_pos r with h | _
  · omega
  · have h' : (r == 0) = false := by simpa using (by omega : r ≠ 0)
    rw [h'] at this
    simpa using this

/-- The hypotheses of `restore_last_save_partial` are met: `demo` saved after another document into a region of 40 bytes (the sector is
erased) and loaded into `other`. -/
example : ∃ h h' m' hN, run 30 Param.blank Param.demo = .ok h ∧ run 30 Param.blank Msgpack.other = .ok h' ∧
    saves 40 40 [simple [1, 2, 3, 4], serTree 4294967296 30 h 0] (blank 40 ++ blank 12) = .ok m' ∧
    load 4294967296 30 ⟨fun _ => 0, fun _ => true⟩ h' 0 m' = .ok (true, hN) ∧ Param.read hN 11 = .ok (.string [104, 105]) := by
  obtain ⟨h, hr⟩ : ∃ h, run 30 Param.blank Param.demo = .ok h := Msgpack.ok_of (by decide +kernel)
  obtain ⟨h', hr'⟩ : ∃ h, run 30 Param.blank Msgpack.other = .ok h := Msgpack.ok_of (by decide +kernel)
  have hlen : (Msgpack.Spec.doc Param.demo 0).length = 16 := by decide
  have hlen' : (docOf Param.demo 0).length = 16 := by rw [docOf, List.length_map, hlen]
  obtain ⟨m', hN, h1, h2, h3, _⟩ := restore_last_save_partial (W := 4294967296) (B := 65536) (n := 0) (N := 40) (sec := 40) (tail := blank 12)
    (ds := []) (xs := [(simple [1, 2, 3, 4], [1, 2, 3, 4])]) (en := ⟨fun _ => 0, fun _ => true⟩) ⟨by omega, blank 12, rfl⟩
    (tail_blank []) stored_empty (by intro x hx; rw [List.mem_singleton.mp hx]; exact ⟨simple_serialises _ _, by simp, by simp, by simp, by simp⟩)
    (fun _ => rfl) Param.demo_proper Msgpack.other_proper (by unfold Msgpack.Spec.SameDecls; decide) Param.demo_distinct
    Msgpack.demo_named Msgpack.demo_sized Msgpack.demo_room Msgpack.demo_dims demo_bytes (Nat.le_refl _) (by decide) (by decide) hr hr'
    (by rw [hlen]; decide) (by decide) (by rw [hlen']; omega) (by omega) (by rw [hlen']) (by rw [hlen]; exact demo_reports hr)
  exact ⟨h, h', m', hN, hr, hr', h1, h2, h3 11 _ (by decide) .self (by decide)⟩

/-- Nothing is loaded from an erased region, and that is reported. -/
theorem load_erased {W fuel : Nat} {en : Msgpack.Env} {h : Heap} {n k : Nat} {tail : List Byte} {m : Flash} (ht : Tail tail)
    (hm : Stored k tail m []) : load W fuel en h n m = .ok (false, h) := by
  have := load_stored ht hm
  simp only [load, this, List.getLast?_nil]

end Verif.Flash
