import Verif.Config.Lemmas3

namespace Verif.Config

open Verif.Param
open Verif.CmpMem (Mem)
open Verif.Msgpack (RS Env At adv Obj readNs readObject readParam asInt sext read_str read_map read_float read_bool tag_num rd_spec adv_adv str_pos map_pos)
open HeapList

/-! ## Integers -/

theorem ofInt_neg {k : Nat} {i : Int} (h1 : -(2 ^ 31 : Int) ≤ i) (h2 : i < 0) (hk : k = (i + 4294967296).toNat) : BitVec.ofNat 32 k = BitVec.ofInt 32 i := by
  apply BitVec.eq_of_toNat_eq
  rw [BitVec.toNat_ofNat, BitVec.toNat_ofInt, hk]
  omega

theorem ofInt_pos {i : Int} (h1 : 0 ≤ i) (h2 : i < 2147483648) : BitVec.ofNat 32 i.toNat = BitVec.ofInt 32 i := by
  apply BitVec.eq_of_toNat_eq
  rw [BitVec.toNat_ofNat, BitVec.toNat_ofInt]
  omega

theorem sext_small {i : Int} (h1 : -128 ≤ i) (h2 : i < 0) : sext 8 (i + 256).toNat = i := by
  unfold sext
  rw [BitVec.toInt_eq_toNat_cond, BitVec.toNat_ofNat]
  split <;> omega

theorem sext_mid {i : Int} (h1 : -32768 ≤ i) (h2 : i < 0) : sext 16 (i + 65536).toNat = i := by
  unfold sext
  rw [BitVec.toInt_eq_toNat_cond, BitVec.toNat_ofNat]
  split <;> omega

theorem sext_pos {i : Int} (h1 : 0 ≤ i) (h2 : i < 128) : sext 8 i.toNat = i := by
  unfold sext
  rw [BitVec.toInt_eq_toNat_cond, BitVec.toNat_ofNat]
  split <;> omega

theorem read_fix {W B t : Nat} {m : Mem} {e : List Nat} {o : Obj} (h : At m (t :: e)) (hW : m.buf.length + B < W) (hB : 4 ≤ B)
    (ho : (t ≤ 127 ∧ o = .posFix t) ∨ (224 ≤ t ∧ o = .negFix t)) : readObject W m = .ok (some o, adv m 1) ∧ At (adv m 1) e := by
  have ht := Msgpack.readObject_tag h hW (by omega)
  refine ⟨?_, At.adv (d := [t]) h⟩
  simp only [readObject, ht, bind, Except.bind, Msgpack.beNum_one]
  rcases ho with ⟨h1, rfl⟩ | ⟨h1, rfl⟩
  · rw [if_pos h1]; rfl
  · have : ∀ x, x < 224 → ¬ t = x := by omega
    simp only [this _ (show 0xC0 < 224 by omega), this _ (show 0xC2 < 224 by omega), this _ (show 0xC3 < 224 by omega), this _ (show 0xC4 < 224 by omega), this _ (show 0xC5 < 224 by omega), this _ (show 0xC6 < 224 by omega), this _ (show 0xC7 < 224 by omega),
      this _ (show 0xC8 < 224 by omega), this _ (show 0xC9 < 224 by omega), this _ (show 0xCA < 224 by omega), this _ (show 0xCB < 224 by omega), this _ (show 0xCC < 224 by omega), this _ (show 0xCD < 224 by omega), this _ (show 0xCE < 224 by omega), this _ (show 0xCF < 224 by omega),
      this _ (show 0xD0 < 224 by omega), this _ (show 0xD1 < 224 by omega), this _ (show 0xD2 < 224 by omega), this _ (show 0xD3 < 224 by omega), this _ (show 0xD4 < 224 by omega), this _ (show 0xD5 < 224 by omega), this _ (show 0xD6 < 224 by omega), this _ (show 0xD7 < 224 by omega),
      this _ (show 0xD8 < 224 by omega), this _ (show 0xD9 < 224 by omega), this _ (show 0xDA < 224 by omega), this _ (show 0xDB < 224 by omega), this _ (show 0xDC < 224 by omega), this _ (show 0xDD < 224 by omega), this _ (show 0xDE < 224 by omega), this _ (show 0xDF < 224 by omega), if_false,
      if_neg (show ¬ t ≤ 0x7F by omega), if_neg (show ¬ t ≤ 0x8F by omega), if_neg (show ¬ t ≤ 0x9F by omega), if_neg (show ¬ t ≤ 0xBF by omega)]
    rw [if_pos (by omega)]; rfl

theorem read_packInt {W B : Nat} {m : Mem} {b e : List Nat} {i : Int} (hp : packInt i = .ok b) (h1 : -2147483648 ≤ i) (h2 : i < 2147483648)
    (h : At m (b ++ e)) (hW : m.buf.length + B < W) (hB : 4 ≤ B) :
    ∃ o k, readObject W m = .ok (some o, adv m k) ∧ At (adv m k) e ∧ asInt o = some (BitVec.ofInt 32 i) ∧ (∀ n, o ≠ .map n) := by
  unfold packInt at hp
  rw [if_neg (by omega), if_neg (by omega)] at hp
  by_cases c1 : i < -32768
  · rw [if_pos c1] at hp; injection hp with hp; subst hp
    rw [List.cons_append] at h
    obtain ⟨r, a⟩ := tag_num (k := 4) h hW (by omega) (by omega) (show _ < 4294967296 by omega) (fun ht => by
      simp only [readObject, ht, bind, Except.bind, Msgpack.beNum_one]; rfl)
    exact ⟨_, _, r, a, by simp only [asInt, ofInt_neg h1 (by omega) rfl], by simp⟩
  rw [if_neg c1] at hp
  by_cases c2 : i < -128
  · rw [if_pos c2] at hp; injection hp with hp; subst hp
    rw [List.cons_append] at h
    obtain ⟨r, a⟩ := tag_num (k := 2) h hW (by omega) (by omega) (show _ < 65536 by omega) (fun ht => by
      simp only [readObject, ht, bind, Except.bind, Msgpack.beNum_one]; rfl)
    exact ⟨_, _, r, a, by simp only [asInt, sext_mid (show -32768 ≤ i by omega) (by omega)], by simp⟩
  rw [if_neg c2] at hp
  by_cases c3 : i < -32
  · rw [if_pos c3] at hp; injection hp with hp; subst hp
    rw [List.cons_append] at h
    obtain ⟨r, a⟩ := tag_num (k := 1) h hW (by omega) (by omega) (show _ < 256 by omega) (fun ht => by
      simp only [readObject, ht, bind, Except.bind, Msgpack.beNum_one]; rfl)
    exact ⟨_, _, r, a, by simp only [asInt, sext_small (show -128 ≤ i by omega) (by omega)], by simp⟩
  rw [if_neg c3] at hp
  by_cases c4 : i < 0
  · rw [if_pos c4] at hp; injection hp with hp; subst hp
    obtain ⟨r, a⟩ := read_fix (t := (i + 256).toNat) (e := e) h hW hB (.inr ⟨by omega, rfl⟩)
    exact ⟨_, _, r, a, by simp only [asInt, sext_small (show -128 ≤ i by omega) c4], by simp⟩
  rw [if_neg c4] at hp
  by_cases c5 : i < 128
  · rw [if_pos c5] at hp; injection hp with hp; subst hp
    obtain ⟨r, a⟩ := read_fix (t := i.toNat) (e := e) h hW hB (.inl ⟨by omega, rfl⟩)
    exact ⟨_, _, r, a, by simp only [asInt, sext_pos (show 0 ≤ i by omega) c5], by simp⟩
  rw [if_neg c5] at hp
  by_cases c6 : i < 256
  · rw [if_pos c6] at hp; injection hp with hp; subst hp
    rw [List.cons_append] at h
    obtain ⟨r, a⟩ := tag_num (k := 1) h hW (by omega) (by omega) (show _ < 256 by omega) (fun ht => by
      simp only [readObject, ht, bind, Except.bind, Msgpack.beNum_one]; rfl)
    exact ⟨_, _, r, a, by simp only [asInt, ofInt_pos (show 0 ≤ i by omega) h2], by simp⟩
  rw [if_neg c6] at hp
  by_cases c7 : i < 65536
  · rw [if_pos c7] at hp; injection hp with hp; subst hp
    rw [List.cons_append] at h
    obtain ⟨r, a⟩ := tag_num (k := 2) h hW (by omega) (by omega) (show _ < 65536 by omega) (fun ht => by
      simp only [readObject, ht, bind, Except.bind, Msgpack.beNum_one]; rfl)
    exact ⟨_, _, r, a, by simp only [asInt, ofInt_pos (show 0 ≤ i by omega) h2], by simp⟩
  rw [if_neg c7, if_pos (show i < 4294967296 by omega)] at hp
  injection hp with hp; subst hp
  rw [List.cons_append] at h
  obtain ⟨r, a⟩ := tag_num (k := 4) h hW (by omega) (by omega) (show _ < 4294967296 by omega) (fun ht => by
    simp only [readObject, ht, bind, Except.bind, Msgpack.beNum_one]; rfl)
  refine ⟨_, _, r, a, ?_, by simp⟩
  simp only [asInt, ofInt_pos (show 0 ≤ i by omega) h2]
  rw [if_pos (by omega)]

/-! ## Setting a parameter -/

/-- The shape of the tree is the same. -/
structure Static (h h' : Heap) : Prop where
  nsId : h'.nsId = h.nsId
  parent : h'.parent = h.parent
  sub : h'.sub = h.sub
  nsNext : h'.nsNext = h.nsNext
  plist : h'.plist = h.plist
  parId : h'.parId = h.parId
  parNs : h'.parNs = h.parNs
  parNext : h'.parNext = h.parNext

theorem Static.refl (h : Heap) : Static h h := ⟨rfl, rfl, rfl, rfl, rfl, rfl, rfl, rfl⟩

theorem Static.trans {h1 h2 h3 : Heap} (a : Static h1 h2) (b : Static h2 h3) : Static h1 h3 :=
  ⟨b.1.trans a.1, b.2.trans a.2, b.3.trans a.3, b.4.trans a.4, b.5.trans a.5, b.6.trans a.6, b.7.trans a.7, b.8.trans a.8⟩

theorem getSub_static {fuel : Nat} {h h' : Heap} (hs : Static h h') (n : Nat) (q : Str) : getSub fuel h' n q = getSub fuel h n q := by
  unfold getSub; rw [hs.nsNext, hs.nsId, hs.sub]

theorem nsFindLoop_static {fuel : Nat} {h h' : Heap} (hs : Static h h') : ∀ (f : Nat) (n : Option Nat) (s : Str),
    nsFindLoop fuel h' f n s = nsFindLoop fuel h f n s
  | f, none, s => by cases f <;> rfl
  | f, some n, [] => by cases f <;> rfl
  | 0, some n, c :: s => rfl
  | f + 1, some n, c :: s => by
    simp only [nsFindLoop, getSub_static hs]
    cases getSub fuel h n ((c :: s).take (idSplit (c :: s))) with
    | error e => rfl
    | ok m => exact nsFindLoop_static hs f m _

theorem parFindLoop_static {fuel : Nat} {h h' : Heap} (hs : Static h h') : ∀ (f : Nat) (n : Option Nat) (s : Str),
    parFindLoop fuel h' f n s = parFindLoop fuel h f n s
  | f, none, s => by cases f <;> rfl
  | f, some n, s => by
    unfold parFindLoop
    dsimp only
    by_cases hk : idSplit s < s.length
    · rw [if_pos hk, if_pos hk]
      cases f with
      | zero => rfl
      | succ f =>
        dsimp only
        rw [getSub_static hs]
        cases getSub fuel h n (s.take (idSplit s)) with
        | error e => rfl
        | ok m => exact parFindLoop_static hs f m _
    · rw [if_neg hk, if_neg hk]
      unfold getPar
      rw [hs.parNext, hs.parId, hs.plist]

theorem addUp_ok {parent : Nat → Option Nat} {d : BitVec 32} : ∀ (ns : List Nat) (fuel : Nat) (p : Option Nat) (c : Nat → BitVec 32),
    IsList parent p ns → ns.length ≤ fuel → ∃ c', addUp parent d fuel p c = .ok c'
  | [], fuel, p, c, h, _ => by
    simp only [IsList] at h; subst h
    cases fuel <;> exact ⟨_, rfl⟩
  | n :: ns, fuel, p, c, h, hf => by
    obtain ⟨rfl, h⟩ := h
    cases fuel with
    | zero => simp at hf
    | succ fuel => exact addUp_ok ns fuel _ _ h (by simpa using hf)

/-- The parameter can hold the value. -/
def Holds : Val → AVal → Prop
  | .scalar _, .scalar _ => True
  | .integer _, .integer _ => True
  | .boolean _, .boolean _ => True
  | .string buf _, .string s => s.length < buf.length
  | _, _ => False

/-- The parameter has a place: the namespaces above it are finitely many, and it is not changed without a value. -/
structure Sound (fuel : Nat) (h : Heap) (p : Nat) : Prop where
  chain : ∃ ch, IsList h.parent (some (h.parNs p)) ch ∧ ch.length ≤ fuel
  flag : h.changed p = true → h.defined p = true

theorem changedSet_ok {fuel : Nat} {h : Heap} {p : Nat} {x : Val} (hs : Sound fuel h p) :
    ∃ h', changedSet fuel (setVal h p x) p = .ok h' ∧ Static h h' ∧ h'.val = upd h.val p x ∧ h'.defined = upd h.defined p true ∧
      h'.changed = upd h.changed p true := by
  unfold changedSet
  by_cases hc : h.changed p = true
  · refine ⟨{ setVal h p x with changed := upd h.changed p true }, by rw [if_pos (show (setVal h p x).changed p = true from hc)]; rfl,
      ⟨rfl, rfl, rfl, rfl, rfl, rfl, rfl, rfl⟩, rfl, ?_, rfl⟩
    have := hs.flag hc
    funext y
    by_cases hy : y = p
    · subst hy; simp [setVal, upd, this]
    · simp [setVal, upd, hy]
  · obtain ⟨ch, h1, h2⟩ := hs.chain
    obtain ⟨c', hc'⟩ := addUp_ok (d := 1) ch fuel _ h.cnt h1 h2
    refine ⟨{ setVal h p x with changed := upd h.changed p true, cnt := c', defined := upd h.defined p true }, ?_,
      ⟨rfl, rfl, rfl, rfl, rfl, rfl, rfl, rfl⟩, rfl, rfl, rfl⟩
    rw [if_neg (show ¬ (setVal h p x).changed p = true from hc)]
    show (addUp h.parent 1 fuel (some (h.parNs p)) h.cnt >>= fun c => _) = _
    rw [hc']; rfl

/-- Result of storing `w` in `p`. -/
structure Stored (h h' : Heap) (p : Nat) (w : AVal) : Prop where
  static : Static h h'
  value : Param.read h' p = .ok w
  flag : h'.defined p = true
  others : ∀ q, q ≠ p → h'.val q = h.val q ∧ h'.defined q = h.defined q ∧ h'.changed q = h.changed q

/-- An object in the document with this value. -/
def Means (o : Obj) : AVal → Prop
  | .scalar v => o = .float v.toNat
  | .integer v => asInt o = some v
  | .boolean b => o = .bool b
  | .string s => o = .str s.length
  | _ => False

/-- What follows the marker of a value. -/
def tail : AVal → List Nat
  | .string t => t
  | _ => []

theorem readParam_ok {W B fuel : Nat} {en : Env} (hen : ∀ k, en.alloc k = true) {s : RS} {p : Nat} {w : AVal} {o : Obj} {e : List Nat}
    (hs : Sound fuel s.heap p) (hh : Holds (s.heap.val p) w) (ho : Means o w)
    (hat : At s.mem (tail w ++ e)) (hW : s.mem.buf.length + B < W)
    (hB : ∀ t, w = .string t → t.length ≤ B) :
    ∃ k h', readParam W fuel en p o s = .ok (true, { s with mem := adv s.mem k, heap := h' }) ∧ At (adv s.mem k) e ∧ Stored s.heap h' p w := by
  have others : ∀ {h' : Heap} {x : Val}, h'.val = upd s.heap.val p x → h'.defined = upd s.heap.defined p true → h'.changed = upd s.heap.changed p true →
      ∀ q, q ≠ p → h'.val q = s.heap.val q ∧ h'.defined q = s.heap.defined q ∧ h'.changed q = s.heap.changed q := by
    intro h' x h1 h2 h3 q hq
    simp [h1, h2, h3, upd, hq]
  cases w with
  | scalar v =>
    cases hx : s.heap.val p <;> rw [hx] at hh <;> simp only [Holds] at hh
    simp only [Means] at ho; subst ho
    obtain ⟨h', c1, c2, c3, c4, c5⟩ := changedSet_ok (x := .scalar v) hs
    refine ⟨0, h', ?_, by simpa [adv, tail] using hat, c2, ?_, by simp [c4, upd], others c3 c4 c5⟩
    · simp only [readParam, hx, Msgpack.getFloat, BitVec.ofNat_toNat, BitVec.setWidth_eq, scalarSet, c1, bind, Except.bind, pure, Except.pure]
      simp [adv]
    · simp [Param.read, c3, upd, scalarRead, c4, assert, bind, Except.bind, pure, Except.pure]
  | integer v =>
    cases hx : s.heap.val p <;> rw [hx] at hh <;> simp only [Holds] at hh
    simp only [Means] at ho
    obtain ⟨h', c1, c2, c3, c4, c5⟩ := changedSet_ok (x := .integer v) hs
    refine ⟨0, h', ?_, by simpa [adv, tail] using hat, c2, ?_, by simp [c4, upd], others c3 c4 c5⟩
    · simp only [readParam, hx, ho, integerSet, c1, bind, Except.bind, pure, Except.pure]
      simp [adv]
    · simp [Param.read, c3, upd, integerRead, c4, assert, bind, Except.bind, pure, Except.pure]
  | boolean v =>
    cases hx : s.heap.val p <;> rw [hx] at hh <;> simp only [Holds] at hh
    simp only [Means] at ho; subst ho
    obtain ⟨h', c1, c2, c3, c4, c5⟩ := changedSet_ok (x := .boolean v) hs
    refine ⟨0, h', ?_, by simpa [adv, tail] using hat, c2, ?_, by simp [c4, upd], others c3 c4 c5⟩
    · simp only [readParam, hx, booleanSet, c1, bind, Except.bind, pure, Except.pure]
      simp [adv]
    · simp [Param.read, c3, upd, booleanRead, c4, assert, bind, Except.bind, pure, Except.pure]
  | string t =>
    cases hx : s.heap.val p <;> rw [hx] at hh <;> simp only [Holds] at hh
    rename_i buf len
    simp only [Means] at ho; subst ho
    have hat : At s.mem (t ++ e) := hat
    have hrd := rd_spec (W := W) (B := B) hat hW (hB t rfl)
    obtain ⟨h', c1, c2, c3, c4, c5⟩ := changedSet_ok (x := .string (t ++ buf.drop t.length) t.length) hs
    have hcopy : copyTo buf t t.length = .ok (t ++ buf.drop t.length) := by
      unfold copyTo; rw [if_pos ⟨Nat.le_refl _, by omega⟩, List.take_length]
    refine ⟨t.length, h', ?_, hat.adv, c2, ?_, by simp [c4, upd], others c3 c4 c5⟩
    · simp only [readParam, hx, if_neg (show ¬ t.length ≥ buf.length by omega), hen, Bool.not_true, Bool.false_eq_true, if_false, hrd,
        stringSetWLen, assert, decide_eq_true (show t.length ≤ buf.length by omega), if_true, hcopy, c1, bind, Except.bind, pure, Except.pure]
    · simp [Param.read, c3, upd, stringRead, c4, assert, copyFrom, bind, Except.bind, pure, Except.pure]
  | vector v => cases hx : s.heap.val p <;> rw [hx] at hh <;> simp only [Holds] at hh
  | varVector v => cases hx : s.heap.val p <;> rw [hx] at hh <;> simp only [Holds] at hh

/-! ## Reading a mapping -/

/-- Every value of the mapping has a parameter which can hold it, looked up from the namespace `n`. -/
inductive Place (fuel : Nat) (h : Heap) : Nat → Dict → List (Nat × AVal) → Prop where
  | nil (n : Nat) : Place fuel h n .nil []
  | leaf {n : Nat} {k : Str} {v : Scalar} {r : Dict} {p : Nat} {w : AVal} {ts : List (Nat × AVal)} :
      parFindLoop fuel h k.length (some n) k = .ok (some p) → v.value = some w → v.fits → Sound fuel h p → Holds (h.val p) w →
      Place fuel h n r ts → Place fuel h n (.leaf k v r) ((p, w) :: ts)
  | sub {n n' : Nat} {k : Str} {d r : Dict} {ts ts' : List (Nat × AVal)} :
      nsFindLoop fuel h k.length (some n) k = .ok (some n') → Place fuel h n' d ts → Place fuel h n r ts' →
      Place fuel h n (.sub k d r) (ts ++ ts')

theorem Sound.mono {fuel : Nat} {h h' : Heap} {p : Nat} (hs : Sound fuel h p) (h1 : Static h h') (h2 : h'.changed p = h.changed p)
    (h3 : h'.defined p = h.defined p) : Sound fuel h' p := by
  constructor
  · rw [h1.parent, h1.parNs]; exact hs.chain
  · rw [h2, h3]; exact hs.flag

/-- Parameters which are not mentioned may change. -/
theorem Place.mono {fuel : Nat} {h h' : Heap} (h1 : Static h h') {n : Nat} {d : Dict} {ts : List (Nat × AVal)} (hp : Place fuel h n d ts) :
    (∀ p ∈ ts.map (·.1), h'.val p = h.val p ∧ h'.defined p = h.defined p ∧ h'.changed p = h.changed p) → Place fuel h' n d ts := by
  induction hp with
  | nil n => intro _; exact .nil n
  | @leaf n k v r p w ts hf hv hfit hs hh _ ih =>
    intro ha
    obtain ⟨a1, a2, a3⟩ := ha p List.mem_cons_self
    refine .leaf ?_ hv hfit (hs.mono h1 a3 a2) (by rw [a1]; exact hh) (ih (fun q hq => ha q (List.mem_cons_of_mem _ hq)))
    rw [parFindLoop_static h1]; exact hf
  | sub hf _ _ ih1 ih2 =>
    intro ha
    rw [List.map_append] at ha
    refine .sub ?_ (ih1 (fun q hq => ha q (List.mem_append_left _ hq))) (ih2 (fun q hq => ha q (List.mem_append_right _ hq)))
    rw [nsFindLoop_static h1]; exact hf

/-- Result of loading the values `ts`. -/
structure LoadedAll (h h' : Heap) (ts : List (Nat × AVal)) : Prop where
  static : Static h h'
  value : ∀ t ∈ ts, Param.read h' t.1 = .ok t.2
  others : ∀ q, q ∉ ts.map (·.1) → h'.val q = h.val q ∧ h'.defined q = h.defined q ∧ h'.changed q = h.changed q

theorem read_congr {h h' : Heap} {p : Nat} (h1 : h'.val p = h.val p) (h2 : h'.defined p = h.defined p) : Param.read h' p = Param.read h p := by
  unfold Param.read
  rw [h1]
  cases hv : h.val p <;> simp only [scalarRead, integerRead, booleanRead, vectorRead, varVectorRead, stringRead, h1, h2, hv]

theorem read_scalar {W B : Nat} {m : Mem} {v : Scalar} {w : AVal} {b e : List Nat} (hp : packScalar v = .ok b) (hv : v.value = some w) (hfit : v.fits)
    (h : At m (b ++ e)) (hW : m.buf.length + B < W) (hB : 4 ≤ B) :
    ∃ o k, readObject W m = .ok (some o, adv m k) ∧ At (adv m k) (tail w ++ e) ∧ Means o w ∧ ∀ n, o ≠ .map n := by
  cases v with
  | bool x =>
    injection hv with hv; subst hv
    injection hp with hp; subst hp
    obtain ⟨r, a⟩ := read_bool h hW hB
    exact ⟨_, _, r, a, rfl, by simp⟩
  | int i =>
    injection hv with hv; subst hv
    obtain ⟨o, k, r, a, h1, h2⟩ := read_packInt hp hfit.1 hfit.2 h hW hB
    exact ⟨o, k, r, a, h1, h2⟩
  | float x =>
    injection hv with hv; subst hv
    injection hp with hp; subst hp
    obtain ⟨r, a⟩ := read_float h hW hB
    exact ⟨_, _, r, a, rfl, by simp⟩
  | str s =>
    injection hv with hv; subst hv
    injection hp with hp; subst hp
    have hfit : s.length < 16 := hfit
    obtain ⟨k, r, a⟩ := read_str h hW hB (by omega)
    exact ⟨_, k, r, a, rfl, by simp⟩
  | other => cases hv

theorem size_le : ∀ {d : Dict} {b : List Nat}, packEntries d = .ok b → d.size ≤ b.length
  | .nil, b, _ => Nat.zero_le _
  | .leaf k v r, b, h => by
    simp only [packEntries, bind, Except.bind] at h
    cases h1 : packScalar v with
    | error e => rw [h1] at h; cases h
    | ok x =>
      rw [h1] at h; dsimp only at h
      cases h2 : packEntries r with
      | error e => rw [h2] at h; cases h
      | ok y =>
        rw [h2] at h
        injection h with h; subst h
        have := size_le h2
        have := str_pos k
        simp only [List.length_append, Dict.size]; omega
  | .sub k d r, b, h => by
    simp only [packEntries, bind, Except.bind] at h
    cases h1 : packEntries d with
    | error e => rw [h1] at h; cases h
    | ok x =>
      rw [h1] at h; dsimp only at h
      cases h2 : packEntries r with
      | error e => rw [h2] at h; cases h
      | ok y =>
        rw [h2] at h
        injection h with h; subst h
        have := size_le h2
        have := str_pos k
        simp only [List.length_append, Dict.size]; omega

theorem readEntries {W B fuel : Nat} {en : Env} (hen : ∀ k, en.alloc k = true) (hB : 16 ≤ B) (hB' : B < 2 ^ 32 - 1) : ∀ {d : Dict} {n f : Nat} {ts : List (Nat × AVal)} {s : RS} {b e : List Nat},
    Place fuel s.heap n d ts → (ts.map (·.1)).Nodup → packEntries d = .ok b → b.length ≤ B → At s.mem (b ++ e) → s.mem.buf.length + B < W → b.length ≤ f →
    ∃ k h', readNs W fuel en f n d.size s = .ok (true, { s with mem := adv s.mem k, heap := h' }) ∧ At (adv s.mem k) e ∧ LoadedAll s.heap h' ts
  | .nil, n, f, ts, s, b, e, hp, hn, hb, hlen, hat, hW, hf => by
    cases hp
    injection hb with hb; subst hb
    refine ⟨0, s.heap, ?_, hat, Static.refl _, by simp, by simp⟩
    cases f <;> rfl
  | .leaf k v r, n, f, _, s, b, e, .leaf (p := p) (w := w) (ts := ts) hfd hv hfit hs hh hp, hn, hb, hlen, hat, hW, hf => by
    simp only [packEntries, bind, Except.bind] at hb
    cases h1 : packScalar v with
    | error e => rw [h1] at hb; cases hb
    | ok x =>
    rw [h1] at hb; dsimp only at hb
    cases h2 : packEntries r with
    | error e => rw [h2] at hb; cases hb
    | ok y =>
    rw [h2] at hb
    injection hb with hb; subst hb
    have hpos := str_pos k
    simp only [List.append_assoc] at hat
    simp only [List.length_append] at hf hlen
    cases f with
    | zero => omega
    | succ f =>
    obtain ⟨k1, r1, a1⟩ := read_str (B := B) hat hW (by omega) (by omega)
    have r2 := rd_spec (W := W) (B := B) (d := k) a1 hW (by omega)
    have a2 := a1.adv
    rw [adv_adv] at r2 a2
    obtain ⟨o, k2, r3, a3, hm, hno⟩ := read_scalar (B := B) h1 hv hfit a2 hW (by omega)
    rw [adv_adv] at r3 a3
    have hstr : ∀ t, w = .string t → t.length ≤ B := by
      intro t ht
      subst ht
      cases v <;> simp only [Scalar.value] at hv <;> cases hv
      have : t.length < 16 := hfit
      omega
    obtain ⟨k3, h', r4, a4, hst⟩ := readParam_ok (W := W) (B := B) (fuel := fuel) hen (s := { s with mem := adv s.mem (k1 + k.length + k2) }) hs hh hm a3 hW hstr
    simp only [adv_adv] at r4 a4
    simp only [List.map_cons, List.nodup_cons] at hn
    have hp' : Place fuel h' n r ts := hp.mono hst.static (fun q hq => hst.others q (by rintro rfl; exact hn.1 hq))
    obtain ⟨k4, h'', r5, a5, hl⟩ := readEntries hen hB hB' (s := { s with mem := adv s.mem (k1 + k.length + k2 + k3), heap := h' })
      hp' hn.2 h2 (by omega) a4 hW (show y.length ≤ f by omega)
    refine ⟨k1 + k.length + k2 + k3 + k4, h'', ?_, by rw [← adv_adv]; exact a5, hst.static.trans hl.static, ?_, ?_⟩
    · have hmod : (k.length + 1) % 2 ^ 32 = k.length + 1 := Nat.mod_eq_of_lt (by omega)
      simp only [Dict.size, readNs, r1, r2, hen, Bool.not_true, Bool.false_eq_true, if_false, bind, Except.bind, hmod, Nat.lt_irrefl, r3]
      cases o <;> first | exact absurd rfl (hno _) | (simp only [hfd, r4, if_true]; rw [r5]; simp [adv_adv])
    · intro t ht
      rcases List.mem_cons.mp ht with rfl | ht
      · have := hl.others p hn.1
        rw [read_congr this.1 this.2.1]; exact hst.value
      · exact hl.value t ht
    · intro q hq
      simp only [List.map_cons, List.mem_cons, not_or] at hq
      obtain ⟨b1, b2, b3⟩ := hl.others q hq.2
      obtain ⟨c1, c2, c3⟩ := hst.others q hq.1
      exact ⟨b1.trans c1, b2.trans c2, b3.trans c3⟩
  | .sub k d r, n, f, _, s, b, e, .sub (n' := n') (ts := ts) (ts' := ts') hfd hp1 hp2, hn, hb, hlen, hat, hW, hf => by
    simp only [packEntries, bind, Except.bind] at hb
    cases h1 : packEntries d with
    | error e => rw [h1] at hb; cases hb
    | ok x =>
    rw [h1] at hb; dsimp only at hb
    cases h2 : packEntries r with
    | error e => rw [h2] at hb; cases hb
    | ok y =>
    rw [h2] at hb
    injection hb with hb; subst hb
    have hpos := str_pos k
    have hsz := size_le h1
    have hmp := map_pos d.size
    simp only [List.append_assoc] at hat
    simp only [List.length_append] at hf hlen
    cases f with
    | zero => omega
    | succ f =>
    obtain ⟨k1, r1, a1⟩ := read_str (B := B) hat hW (by omega) (by omega)
    have r2 := rd_spec (W := W) (B := B) (d := k) a1 hW (by omega)
    have a2 := a1.adv
    rw [adv_adv] at r2 a2
    obtain ⟨k2, r3, a3⟩ := read_map (B := B) a2 hW (by omega) (by omega)
    rw [adv_adv] at r3 a3
    rw [List.map_append] at hn
    have hn' := List.nodup_append.mp hn
    obtain ⟨k3, h', r4, a4, hst⟩ := readEntries hen hB hB' (s := { s with mem := adv s.mem (k1 + k.length + k2) })
      hp1 hn'.1 h1 (by omega) a3 hW (show x.length ≤ f by omega)
    simp only [adv_adv] at r4 a4
    have hp' : Place fuel h' n r ts' := hp2.mono hst.static (fun q hq => hst.others q (fun h => hn'.2.2 q h q hq rfl))
    obtain ⟨k4, h'', r5, a5, hl⟩ := readEntries hen hB hB' (s := { s with mem := adv s.mem (k1 + k.length + k2 + k3), heap := h' })
      hp' hn'.2.1 h2 (by omega) a4 hW (show y.length ≤ f by omega)
    refine ⟨k1 + k.length + k2 + k3 + k4, h'', ?_, by rw [← adv_adv]; exact a5, hst.static.trans hl.static, ?_, ?_⟩
    · have hmod : (k.length + 1) % 2 ^ 32 = k.length + 1 := Nat.mod_eq_of_lt (by omega)
      simp only [Dict.size, readNs, r1, r2, hen, Bool.not_true, Bool.false_eq_true, if_false, bind, Except.bind, hmod, Nat.lt_irrefl, r3, hfd, r4, if_true]
      rw [r5]; simp [adv_adv]
    · intro t ht
      rcases List.mem_append.mp ht with ht | ht
      · have hnot : t.1 ∉ ts'.map (·.1) := fun h => hn'.2.2 t.1 (List.mem_map_of_mem ht) t.1 h rfl
        have := hl.others t.1 hnot
        rw [read_congr this.1 this.2.1]; exact hst.value t ht
      · exact hl.value t ht
    · intro q hq
      simp only [List.map_append, List.mem_append, not_or] at hq
      obtain ⟨b1, b2, b3⟩ := hl.others q hq.2
      obtain ⟨c1, c2, c3⟩ := hst.others q hq.1
      exact ⟨b1.trans c1, b2.trans c2, b3.trans c3⟩

/-- Loading a document into a tree with a place for all its values. -/
theorem read_place {W fuel : Nat} {en : Env} {h : Heap} {n : Nat} {d : Dict} {ts : List (Nat × AVal)} {doc : List Nat} (hen : ∀ k, en.alloc k = true)
    (hp : Place fuel h n d ts) (hn : (ts.map (·.1)).Nodup) (hd : pack d = .ok doc) (hlen : doc.length + 16 < 2 ^ 32 - 1) (hW : 2 * doc.length + 16 < W) :
    ∃ s, Msgpack.read W fuel en h n doc = .ok (true, s) ∧ s.errs = 0 ∧ LoadedAll h s.heap ts := by
  unfold pack at hd
  cases h1 : packEntries d with
  | error e => rw [h1] at hd; cases hd
  | ok b =>
    rw [h1] at hd
    injection hd with hd; subst hd
    have hsz := size_le h1
    have hmp := map_pos d.size
    rw [List.length_append] at hlen hW
    have hat : At (CmpMem.init (Msgpack.Spec.map d.size ++ b)) (Msgpack.Spec.map d.size ++ (b ++ [])) := ⟨by simp [CmpMem.init], Nat.zero_le _⟩
    have hW' : (CmpMem.init (Msgpack.Spec.map d.size ++ b)).buf.length + ((Msgpack.Spec.map d.size ++ b).length + 16) < W := by
      simp only [CmpMem.init, List.length_append]; omega
    obtain ⟨k1, r1, a1⟩ := read_map hat hW' (by simp only [List.length_append]; omega) (by omega)
    obtain ⟨k2, h', r2, _, hl⟩ := readEntries hen (by simp only [List.length_append]; omega) (by simp only [List.length_append]; omega)
      (s := ⟨adv (CmpMem.init (Msgpack.Spec.map d.size ++ b)) k1, h, 0⟩) hp hn h1
      (by simp only [List.length_append]; omega) a1 hW' (f := (Msgpack.Spec.map d.size ++ b).length + 1) (by simp only [List.length_append]; omega)
    refine ⟨⟨adv (adv (CmpMem.init (Msgpack.Spec.map d.size ++ b)) k1) k2, h', 0⟩, ?_, rfl, hl⟩
    show (readObject W _ >>= fun x => _) = _
    rw [r1]
    exact r2

end Verif.Config
