import Verif.Msgpack.Model
import Verif.Msgpack.Spec
import Verif.CmpMem.Props
import Verif.Param.Lemmas2

namespace Verif.Msgpack

open Verif.Param Verif.HeapList
open Verif.CmpMem (Mem)

/-! ## Writers -/

/-- `e` stored at the position, position behind it. -/
def put (m : Mem) (e : List Nat) : Mem := ⟨m.buf.take m.index ++ e ++ m.buf.drop (m.index + e.length), m.index + e.length⟩

theorem put_length {m : Mem} {e : List Nat} (h : m.index + e.length ≤ m.buf.length) : (put m e).buf.length = m.buf.length := by
  simp [put]; omega

theorem put_nil {m : Mem} : put m [] = m := by simp [put]

theorem put_put {m : Mem} {a b : List Nat} (h : m.index + (a ++ b).length ≤ m.buf.length) : put (put m a) b = put m (a ++ b) := by
  simp only [List.length_append] at h
  have hl : (m.buf.take m.index ++ a).length = m.index + a.length := by simp; omega
  unfold put
  simp only [CmpMem.Mem.mk.injEq]
  refine ⟨?_, by simp; omega⟩
  rw [List.take_left' hl, ← List.drop_drop, List.drop_left' hl, List.drop_drop]
  simp [Nat.add_assoc]

/-- Same buffer size, position not before and inside. -/
def Ext (m m' : Mem) : Prop := m'.buf.length = m.buf.length ∧ m.index ≤ m'.index ∧ m'.index ≤ m'.buf.length

theorem Ext.refl {m : Mem} (h : m.index ≤ m.buf.length) : Ext m m := ⟨rfl, Nat.le_refl _, h⟩
theorem Ext.trans {a b c : Mem} (h : Ext a b) (h' : Ext b c) : Ext a c :=
  ⟨h'.1.trans h.1, Nat.le_trans h.2.1 h'.2.1, h'.2.2⟩
theorem ext_put {m : Mem} {e : List Nat} (h : m.index + e.length ≤ m.buf.length) : Ext m (put m e) :=
  ⟨put_length h, by simp [put], by rw [put_length h]; exact h⟩

/-- `w` writes exactly `e` if it fits and reports failure otherwise, for buffers with `B` addresses left behind. -/
def IsWriter (W B : Nat) (w : Writer) (e : List Nat) : Prop :=
  ∀ m : Mem, m.index ≤ m.buf.length → m.buf.length + B < W →
    (m.index + e.length ≤ m.buf.length → w m = .ok (true, put m e)) ∧
    (m.buf.length < m.index + e.length → ∃ m', w m = .ok (false, m') ∧ Ext m m')

theorem IsWriter.ok {W B : Nat} {w : Writer} {e : List Nat} (h : IsWriter W B w e) {m : Mem} (hi : m.index ≤ m.buf.length)
    (hW : m.buf.length + B < W) : ∃ b m', w m = .ok (b, m') ∧ Ext m m' ∧ (b = true ↔ m.index + e.length ≤ m.buf.length) ∧
      (b = true → m' = put m e) := by
  obtain ⟨h1, h2⟩ := h m hi hW
  by_cases hc : m.index + e.length ≤ m.buf.length
  · exact ⟨true, _, h1 hc, ext_put hc, by simp [hc], fun _ => rfl⟩
  · obtain ⟨m', h3, h4⟩ := h2 (by omega)
    exact ⟨false, m', h3, h4, by simp [hc], fun h => by cases h⟩

theorem lift_write {W : Nat} {m : Mem} {d : List Nat} (h : m.index + d.length < W) :
    lift (CmpMem.write W m d) = .ok (if m.index + d.length ≤ m.buf.length then (d.length, put m d) else (0, m)) := by
  rw [CmpMem.write_eq h]
  split <;> rfl

theorem wr_spec {W B : Nat} {d : List Nat} (hd : d ≠ []) (hB : d.length ≤ B) : IsWriter W B (wr W d) d := by
  intro m hi hW
  have hn : m.index + d.length < W := by omega
  have hl : d.length ≠ 0 := by simpa using hd
  unfold wr
  rw [lift_write hn]
  constructor
  · intro h
    simp only [if_pos h, bind, Except.bind, pure, Except.pure]
    simp [hl]
  · intro h
    refine ⟨m, ?_, Ext.refl hi⟩
    simp only [if_neg (show ¬ m.index + d.length ≤ m.buf.length by omega), bind, Except.bind, pure, Except.pure]
    rfl

theorem wrByte_spec {W B : Nat} {b : Nat} (hB : 1 ≤ B) : IsWriter W B (wrByte W b) [b] := by
  intro m hi hW
  have hn : m.index + [b].length < W := by simp; omega
  unfold wrByte
  rw [lift_write hn]
  constructor
  · intro h
    simp only [if_pos h, bind, Except.bind, pure, Except.pure]
    rfl
  · intro h
    refine ⟨m, ?_, Ext.refl hi⟩
    simp only [if_neg (show ¬ m.index + [b].length ≤ m.buf.length by omega), bind, Except.bind, pure, Except.pure]
    rfl

theorem andThen_spec {W B : Nat} {a b : Writer} {d e : List Nat} (ha : IsWriter W B a d) (hb : IsWriter W B b e) :
    IsWriter W B (andThen a b) (d ++ e) := by
  intro m hi hW
  obtain ⟨x, m1, h1, he, hx, hput⟩ := ha.ok hi hW
  have hi1 : m1.index ≤ m1.buf.length := he.2.2
  have hW1 : m1.buf.length + B < W := by rw [he.1]; exact hW
  constructor
  · intro hfit
    have hfit' := hfit
    rw [List.length_append] at hfit
    have hxt : x = true := hx.mpr (by omega)
    have hm1 := hput hxt
    subst hxt; subst hm1
    have := (hb _ hi1 hW1).1 (by rw [he.1]; simp only [put]; omega)
    rw [put_put hfit'] at this
    simp only [andThen, h1, bind, Except.bind, if_true]
    exact this
  · intro hfit
    rw [List.length_append] at hfit
    cases x with
    | false => exact ⟨m1, by simp [andThen, h1, bind, Except.bind, pure, Except.pure], he⟩
    | true =>
      have hm1 := hput rfl
      have hd := hx.mp rfl
      subst hm1
      obtain ⟨m2, h2, he2⟩ := (hb _ hi1 hW1).2 (by rw [he.1]; simp only [put]; omega)
      exact ⟨m2, by simp only [andThen, h1, bind, Except.bind, if_true]; exact h2, he.trans he2⟩

theorem both_spec {W B : Nat} {a b : Writer} {d e : List Nat} (ha : IsWriter W B a d) (hb : IsWriter W B b e) :
    IsWriter W B (both a b) (d ++ e) := by
  intro m hi hW
  obtain ⟨x, m1, h1, he, hx, hput⟩ := ha.ok hi hW
  have hi1 : m1.index ≤ m1.buf.length := he.2.2
  have hW1 : m1.buf.length + B < W := by rw [he.1]; exact hW
  obtain ⟨y, m2, h2, he2, hy, hput2⟩ := hb.ok hi1 hW1
  have hrun : both a b m = .ok (x && y, m2) := by simp [both, h1, h2, bind, Except.bind, pure, Except.pure]
  constructor
  · intro hfit
    have hfit' := hfit
    rw [List.length_append] at hfit
    have hxt : x = true := hx.mpr (by omega)
    have hm1 := hput hxt
    subst hxt; subst hm1
    have hyt : y = true := hy.mpr (by rw [he.1]; simp only [put]; omega)
    have hm2 := hput2 hyt
    subst hyt; subst hm2
    rw [hrun, put_put hfit']; rfl
  · intro hfit
    rw [List.length_append] at hfit
    refine ⟨m2, ?_, he.trans he2⟩
    rw [hrun]
    cases x with
    | false => rfl
    | true =>
      cases y with
      | false => rfl
      | true =>
        have hm1 := hput rfl
        have hd := hx.mp rfl
        have hy := hy.mp rfl
        rw [he.1, hm1] at hy
        simp only [put] at hy
        omega

theorem wrData_spec {W B : Nat} {d : List Nat} (hB : d.length ≤ B) : IsWriter W B (wrData W d) d := by
  intro m hi hW
  unfold wrData
  by_cases hd : d.length = 0
  · have : d = [] := List.length_eq_zero_iff.mp hd
    subst this
    simp only [List.length_nil, if_true]
    exact ⟨fun _ => by rw [put_nil]; rfl, fun h => by omega⟩
  · rw [if_neg hd]
    exact wr_spec (by simpa using hd) hB m hi hW

theorem be16_eq (x : Nat) : be16 x = Spec.be 2 x := rfl
theorem be32_eq (x : Nat) : be32 x = Spec.be 4 x := by
  simp only [be32, Spec.be, List.nil_append, List.cons_append, Nat.div_div_eq_div_mul]

theorem or_add {k n : Nat} (i : Nat) (h : n < 2 ^ i) : (2 ^ i * k) ||| n = 2 ^ i * k + n := (Nat.two_pow_add_eq_or_of_lt h k).symm

theorem writeStr_spec {W B : Nat} {d : List Nat} (h4 : 4 ≤ B) (hB : d.length ≤ B) : IsWriter W B (writeStr W d) (Spec.str d) := by
  unfold writeStr Spec.str
  by_cases h1 : d.length ≤ 0x1F
  · rw [if_pos h1, if_pos (by omega), show (0xA0 ||| d.length) = 0xA0 + d.length from or_add (k := 5) 5 (by omega)]
    exact andThen_spec (wrByte_spec (by omega)) (wrData_spec hB)
  rw [if_neg h1, if_neg (show ¬ d.length < 32 by omega)]
  by_cases h2 : d.length ≤ 0xFF
  · rw [if_pos h2, if_pos (by omega)]
    have hb : Spec.be 1 d.length = [d.length] := by
      simp only [Spec.be, List.nil_append]; rw [Nat.mod_eq_of_lt (by omega)]
    rw [hb]
    exact andThen_spec (andThen_spec (wrByte_spec (by omega)) (wr_spec (by simp) (by simp; omega))) (wrData_spec hB)
  rw [if_neg h2, if_neg (show ¬ d.length < 256 by omega)]
  by_cases h3 : d.length ≤ 0xFFFF
  · rw [if_pos h3, if_pos (by omega), be16_eq]
    exact andThen_spec (andThen_spec (wrByte_spec (by omega)) (wr_spec (by simp [Spec.be]) (by simp [Spec.be]; omega))) (wrData_spec hB)
  · rw [if_neg h3, if_neg (show ¬ d.length < 65536 by omega), be32_eq]
    exact andThen_spec (andThen_spec (wrByte_spec (by omega)) (wr_spec (by simp [Spec.be]) (by simp [Spec.be]; omega))) (wrData_spec hB)

theorem writeArray_spec {W B n : Nat} (h4 : 4 ≤ B) : IsWriter W B (writeArray W n) (Spec.array n) := by
  unfold writeArray Spec.array
  by_cases h1 : n ≤ 0xF
  · rw [if_pos h1, if_pos (by omega), show (0x90 ||| n) = 0x90 + n from or_add (k := 9) 4 (by omega)]
    exact wrByte_spec (by omega)
  rw [if_neg h1, if_neg (show ¬ n < 16 by omega)]
  by_cases h3 : n ≤ 0xFFFF
  · rw [if_pos h3, if_pos (by omega), be16_eq]
    exact andThen_spec (d := [_]) (wrByte_spec (by omega)) (wr_spec (by simp [Spec.be]) (by simp [Spec.be]; omega))
  · rw [if_neg h3, if_neg (show ¬ n < 65536 by omega), be32_eq]
    exact andThen_spec (d := [_]) (wrByte_spec (by omega)) (wr_spec (by simp [Spec.be]) (by simp [Spec.be]; omega))

theorem writeMap_spec {W B n : Nat} (h4 : 4 ≤ B) : IsWriter W B (writeMap W n) (Spec.map n) := by
  unfold writeMap Spec.map
  by_cases h1 : n ≤ 0xF
  · rw [if_pos h1, if_pos (by omega), show (0x80 ||| n) = 0x80 + n from or_add (k := 8) 4 (by omega)]
    exact wrByte_spec (by omega)
  rw [if_neg h1, if_neg (show ¬ n < 16 by omega)]
  by_cases h3 : n ≤ 0xFFFF
  · rw [if_pos h3, if_pos (by omega), be16_eq]
    exact andThen_spec (d := [_]) (wrByte_spec (by omega)) (wr_spec (by simp [Spec.be]) (by simp [Spec.be]; omega))
  · rw [if_neg h3, if_neg (show ¬ n < 65536 by omega), be32_eq]
    exact andThen_spec (d := [_]) (wrByte_spec (by omega)) (wr_spec (by simp [Spec.be]) (by simp [Spec.be]; omega))

theorem writeFloat_spec {W B : Nat} {v : W32} (h4 : 4 ≤ B) : IsWriter W B (writeFloat W v) (Spec.float v) := by
  unfold writeFloat Spec.float
  rw [be32_eq]
  exact andThen_spec (d := [_]) (wrByte_spec (by omega)) (wr_spec (by simp [Spec.be]) (by simp [Spec.be]; omega))

theorem writeS32_spec {W B : Nat} {v : W32} (h4 : 4 ≤ B) : IsWriter W B (writeS32 W v) (Spec.int32 v) := by
  unfold writeS32 Spec.int32
  rw [be32_eq]
  exact andThen_spec (d := [_]) (wrByte_spec (by omega)) (wr_spec (by simp [Spec.be]) (by simp [Spec.be]; omega))

theorem writeBool_spec {W B : Nat} {b : Bool} (h4 : 4 ≤ B) : IsWriter W B (writeBool W b) (Spec.bool b) := by
  cases b <;> exact wrByte_spec (by omega)

theorem writeFloats_spec {W B : Nat} (h4 : 4 ≤ B) : ∀ v : List W32, IsWriter W B (writeFloats W v) (v.flatMap Spec.float)
  | [] => fun m _ _ => ⟨fun _ => by simp only [List.flatMap_nil, put_nil]; rfl, fun h => by simp at h; omega⟩
  | v :: vs => by
    rw [List.flatMap_cons]
    exact both_spec (writeFloat_spec h4) (writeFloats_spec h4 vs)

theorem writeVal_spec {W B : Nat} {d : Decl} {v : AVal} {x : Val} (h4 : 4 ≤ B) (hB : ∀ s, v = .string s → s.length ≤ B)
    (hx : valOK d (some v) x) : IsWriter W B (writeVal W x) (Spec.value v) := by
  cases d <;> cases x <;> simp only [valOK] at hx <;> try exact hx.elim
  · rw [hx v rfl]; exact writeFloat_spec h4
  · rw [hx v rfl]; exact writeS32_spec h4
  · rw [hx v rfl]; exact writeBool_spec h4
  · rename_i buf dim
    have hv := hx.2.2.2 v rfl
    rw [hv]
    have hc : copyFrom buf dim = .ok (buf.take dim) := by simp [copyFrom, hx.2.2.1]
    intro m hi hW
    simp only [writeVal, hc, bind, Except.bind]
    exact both_spec (writeArray_spec h4) (writeFloats_spec h4 _) m hi hW
  · rename_i buf dim
    have hv := hx.2 v rfl
    rw [hv.2]
    have hc : copyFrom buf dim = .ok (buf.take dim) := by simp [copyFrom, hv.1]
    intro m hi hW
    simp only [writeVal, hc, bind, Except.bind]
    exact both_spec (writeArray_spec h4) (writeFloats_spec h4 _) m hi hW
  · rename_i buf len
    have hv := hx.2 v rfl
    have := hB _ hv.2
    rw [hv.2]
    have hc : copyFrom buf len = .ok (buf.take len) := by simp [copyFrom, hv.1]
    intro m hi hW
    simp only [writeVal, hc, bind, Except.bind]
    exact writeStr_spec h4 this m hi hW

/-! ## The tree -/

theorem gather_spec {next : Nat → Option Nat} : ∀ {l : List Nat} {p : Option Nat} {fuel : Nat}, IsList next p l → l.length ≤ fuel →
    gather next fuel p = .ok l
  | [], p, fuel, h, _ => by simp only [IsList] at h; subst h; cases fuel <;> rfl
  | i :: l, p, 0, h, hf => by simp at hf
  | i :: l, p, fuel + 1, h, hf => by
    obtain ⟨hp, hl⟩ := h; subst hp
    simp only [gather, gather_spec hl (by simpa using hf), bind, Except.bind, pure, Except.pure]

/-- `t` appends `e` without error if it fits; in any case it stays in the buffer and does not take back errors. -/
def Emits (W B : Nat) (t : Mem × Nat → Except Param.Err (Mem × Nat)) (e : List Nat) : Prop :=
  ∀ (m : Mem) (k : Nat), m.index ≤ m.buf.length → m.buf.length + B < W →
    ∃ m' k', t (m, k) = .ok (m', k') ∧ Ext m m' ∧ k ≤ k' ∧ (m.index + e.length ≤ m.buf.length → m' = put m e ∧ k' = k)

theorem emits_nil {W B : Nat} : Emits W B (fun s => .ok s) [] :=
  fun m k hi _ => ⟨m, k, rfl, Ext.refl hi, Nat.le_refl _, fun _ => ⟨put_nil.symm, rfl⟩⟩

theorem emits_seq {W B : Nat} {t u : Mem × Nat → Except Param.Err (Mem × Nat)} {d e : List Nat} (ht : Emits W B t d)
    (hu : Emits W B u e) : Emits W B (fun s => do let s ← t s; u s) (d ++ e) := by
  intro m k hi hW
  obtain ⟨m1, k1, h1, he, hk, hp⟩ := ht m k hi hW
  obtain ⟨m2, k2, h2, he2, hk2, hp2⟩ := hu m1 k1 he.2.2 (by rw [he.1]; exact hW)
  refine ⟨m2, k2, ?_, he.trans he2, Nat.le_trans hk hk2, ?_⟩
  · simp only [h1, bind, Except.bind]; exact h2
  · intro hfit
    have hfit' := hfit
    rw [List.length_append] at hfit
    obtain ⟨a1, a2⟩ := hp (by omega)
    obtain ⟨b1, b2⟩ := hp2 (by rw [he.1, a1]; simp only [put]; omega)
    exact ⟨by rw [b1, a1, put_put hfit'], by omega⟩

theorem emits_foldl {W B : Nat} {t : Mem × Nat → Nat → Except Param.Err (Mem × Nat)} {e : Nat → List Nat} :
    ∀ {l : List Nat}, (∀ x ∈ l, Emits W B (fun s => t s x) (e x)) → Emits W B (fun s => l.foldlM t s) (l.flatMap e)
  | [], _ => emits_nil
  | x :: l, h => by
    have := emits_seq (h x List.mem_cons_self) (emits_foldl (l := l) (fun y hy => h y (List.mem_cons_of_mem _ hy)))
    simpa [List.foldlM_cons] using this

/-- A writer whose result is dropped. -/
theorem emits_drop {W B : Nat} {w : Writer} {e : List Nat} (hw : IsWriter W B w e) :
    Emits W B (fun s => do let r ← w s.1; pure (r.2, s.2)) e := by
  intro m k hi hW
  obtain ⟨b, m', h1, he, hb, hp⟩ := hw.ok hi hW
  refine ⟨m', k, by simp only [h1, bind, Except.bind]; rfl, he, Nat.le_refl _, fun hf => ⟨hp (hb.mpr hf), rfl⟩⟩

theorem fits_value : ∀ {l : List Op} {p : Nat} {v : AVal}, Proper l → valueOf p l = some v → ∃ d, declOf p l = some d ∧ Fits d v
  | [], _, _, _, h => by simp [valueOf] at h
  | .declNs _ _ _ :: l, p, v, hp, h => fits_value (l := l) hp.2.2.2 h
  | .get _ :: l, p, v, hp, h => fits_value (l := l) hp.2 h
  | .set q w :: l, p, v, hp, h => by
    simp only [valueOf] at h
    by_cases hq : q = p
    · simp only [hq, if_true, Option.some.injEq] at h
      obtain ⟨⟨d, h1, h2⟩, _⟩ := hp
      subst h; subst hq
      exact ⟨d, h1, h2⟩
    · simp only [hq, if_false] at h
      exact fits_value (l := l) hp.2 h
  | .declPar q n id d :: l, p, v, hp, h => by
    simp only [valueOf] at h
    simp only [declOf]
    by_cases hq : q = p
    · simp only [hq, if_true] at h ⊢
      refine ⟨d, rfl, ?_⟩
      have hok := hp.2.2.2.1
      cases d with
      | scalar j x => cases x <;> simp [Decl.default] at h; subst h; trivial
      | integer j x => cases x <;> simp [Decl.default] at h; subst h; trivial
      | boolean j x => cases x <;> simp [Decl.default] at h; subst h; trivial
      | vector b k x => cases x <;> simp [Decl.default] at h; subst h; simp [Fits]; exact Nat.min_eq_left hok
      | varVector b j x => cases x <;> simp [Decl.default] at h; subst h; simp [Fits]; omega
      | string b j x => cases x <;> simp [Decl.default] at h; subst h; exact hok
    · simp only [hq, if_false] at h ⊢
      exact fits_value (l := l) hp.2.2.2.2 h

theorem writePar_spec {W B : Nat} {l : List Op} {h : Heap} (hi : Inv l h) (hp : Proper l) (hB : 65536 ≤ B)
    (hs : Spec.Sized l B) {p : Nat} (hm : p ∈ pars l) : Emits W B (fun s => writePar W h s p) (Spec.par l p) := by
  unfold writePar Spec.par
  rw [hi.defined p hm]
  cases hv : valueOf p l with
  | none => simpa using emits_nil
  | some v =>
    simp only [Option.isSome_some, Bool.not_true]
    obtain ⟨d, hd, hfit⟩ := fits_value hp hv
    have hval := hi.val p d hd
    rw [hv] at hval
    rw [hi.tree.parId p hm]
    have hw : IsWriter W B (both (writeStr W (parIdOf p l)) (writeVal W (h.val p))) (Spec.str (parIdOf p l) ++ Spec.value v) := by
      refine both_spec (writeStr_spec (by omega) (hs.2 p hm)) (writeVal_spec (by omega) ?_ hval)
      intro s hsv
      subst hsv
      cases d <;> simp only [Fits] at hfit <;> omega
    intro m k hi' hW
    obtain ⟨b, m', h1, he, hb, hput⟩ := hw.ok hi' hW
    refine ⟨m', if b then k else k + 1, ?_, he, ?_, ?_⟩
    · simp only [h1, bind, Except.bind, pure, Except.pure]; rfl
    · split <;> omega
    · intro hf
      have := hb.mpr hf
      exact ⟨hput this, by simp [this]⟩

theorem chain_child {l : List Op} {n m : Nat} (hp : Proper l) (hm : m ∈ subs n l) : chain m l = m :: chain n l := by
  obtain ⟨h1, h2⟩ := (mem_subs hp).mp hm
  rw [chain_unfold hp h1, h2]

theorem entries_eq {l : List Op} {h : Heap} (hi : Inv l h) (n : Nat) :
    (subs n l).length + ((parsIn n l).filter h.defined).length = Spec.entries l n := by
  unfold Spec.entries
  congr 2
  apply List.filter_congr
  intro p hp
  rw [hi.defined p (parsIn_pars hp)]

theorem writeSubtree_spec {W B fuel : Nat} {l : List Op} {h : Heap} (hi : Inv l h) (hp : Proper l) (hf : l.length ≤ fuel)
    (hB : 65536 ≤ B) (hs : Spec.Sized l B) : ∀ (f n : Nat), n ∈ nss l → l.length < f + (chain n l).length →
    Emits W B (writeSubtree W fuel h f n) (Spec.tree l f n)
  | 0, n, _, hc => by have := chain_length n l; omega
  | f + 1, n, hn, hc => by
    have e1 : gather h.nsNext fuel (h.sub n) = .ok (subs n l) :=
      gather_spec (hi.tree.subs n hn) (Nat.le_trans (subs_length n l) hf)
    have e2 : gather h.parNext fuel (h.plist n) = .ok (parsIn n l) :=
      gather_spec (hi.tree.plist n hn) (Nat.le_trans (parsIn_length n l) hf)
    have e3 : ((subs n l).length + ((parsIn n l).filter h.defined).length) % 2 ^ 32 = Spec.entries l n := by
      rw [entries_eq hi, Nat.mod_eq_of_lt (hs.1 n hn).2]
    have hmap : Emits W B (fun s => do let r ← writeMap W (Spec.entries l n) s.1; pure (r.2, s.2)) (Spec.map (Spec.entries l n)) :=
      emits_drop (writeMap_spec (by omega))
    have hsub : Emits W B (fun s => (subs n l).foldlM (fun (s : Mem × Nat) c => do
        let r ← writeStr W (h.nsId c) s.1
        writeSubtree W fuel h f c (r.2, s.2)) s) ((subs n l).flatMap (fun m => Spec.str (nsIdOf m l) ++ Spec.tree l f m)) := by
      apply emits_foldl
      intro c hcm
      have hcn := subs_nss hcm
      have hch := chain_child hp hcm
      have ih := writeSubtree_spec (W := W) (B := B) hi hp hf hB hs f c hcn (by rw [hch]; simp; omega)
      have := emits_seq (emits_drop (writeStr_spec (W := W) (d := h.nsId c) (by omega) (by rw [hi.tree.nsId c hcn]; exact (hs.1 c hcn).1))) ih
      rw [hi.tree.nsId c hcn] at this ⊢
      intro m k h1 h2
      obtain ⟨m', k', h3, h4⟩ := this m k h1 h2
      refine ⟨m', k', ?_, h4⟩
      rw [← h3]
      simp only [bind, Except.bind, pure, Except.pure]
      cases writeStr W (nsIdOf c l) m <;> rfl
    have hpar : Emits W B (fun s => (parsIn n l).foldlM (writePar W h) s) ((parsIn n l).flatMap (Spec.par l)) :=
      emits_foldl (fun p hpm => writePar_spec hi hp hB hs (parsIn_pars hpm))
    have hall := emits_seq (emits_seq hmap hsub) hpar
    intro m k h1 h2
    obtain ⟨m', k', h3, h4⟩ := hall m k h1 h2
    refine ⟨m', k', ?_, h4⟩
    rw [← h3]
    simp only [writeSubtree, e1, e2, e3, bind, Except.bind, pure, Except.pure]
    cases writeMap W (Spec.entries l n) m <;> rfl

end Verif.Msgpack
