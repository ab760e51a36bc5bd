import Verif.Msgpack.WriteLemmas
import Verif.Param.Props

namespace Verif.Msgpack

open Verif.Param Verif.HeapList
open Verif.CmpMem (Mem)

/-! ## Same declarations -/

/-- A declaration with the given shape. -/
def unshape : Spec.Shape → Op
  | .ns n parent id => .declNs n parent id
  | .scalar p n id => .declPar p n id (.scalar 0 none)
  | .integer p n id => .declPar p n id (.integer 0 none)
  | .boolean p n id => .declPar p n id (.boolean false none)
  | .vector p n id dim => .declPar p n id (.vector [] dim false)
  | .varVector p n id k => .declPar p n id (.varVector (List.replicate k 0) 0 none)
  | .string p n id k => .declPar p n id (.string (List.replicate k 0) 0 none)

def canon : Decl → Decl
  | .scalar _ _ => .scalar 0 none
  | .integer _ _ => .integer 0 none
  | .boolean _ _ => .boolean false none
  | .vector _ dim _ => .vector [] dim false
  | .varVector b _ _ => .varVector (List.replicate b.length 0) 0 none
  | .string b _ _ => .string (List.replicate b.length 0) 0 none

def core (l : List Op) : List Op := (l.filterMap Spec.shape).map unshape

theorem core_set (p : Nat) (v : AVal) (l : List Op) : core (.set p v :: l) = core l := rfl
theorem core_get (p : Nat) (l : List Op) : core (.get p :: l) = core l := rfl
theorem core_ns (n : Nat) (q : Option Nat) (id : Str) (l : List Op) : core (.declNs n q id :: l) = .declNs n q id :: core l := by
  simp [core, Spec.shape, unshape]
theorem core_par (p n : Nat) (id : Str) (d : Decl) (l : List Op) :
    core (.declPar p n id d :: l) = .declPar p n id (canon d) :: core l := by
  cases d <;> simp [core, Spec.shape, unshape, canon]

theorem nss_core : ∀ l : List Op, nss (core l) = nss l
  | [] => rfl
  | .declNs _ _ _ :: l => by rw [core_ns]; simp only [nss, nss_core l]
  | .declPar _ _ _ _ :: l => by rw [core_par]; simp only [nss, nss_core l]
  | .set _ _ :: l => by rw [core_set]; simp only [nss, nss_core l]
  | .get _ :: l => by rw [core_get]; simp only [nss, nss_core l]
theorem pars_core : ∀ l : List Op, pars (core l) = pars l
  | [] => rfl
  | .declNs _ _ _ :: l => by rw [core_ns]; simp only [pars, pars_core l]
  | .declPar _ _ _ _ :: l => by rw [core_par]; simp only [pars, pars_core l]
  | .set _ _ :: l => by rw [core_set]; simp only [pars, pars_core l]
  | .get _ :: l => by rw [core_get]; simp only [pars, pars_core l]
theorem subs_core (n : Nat) : ∀ l : List Op, subs n (core l) = subs n l
  | [] => rfl
  | .declNs _ _ _ :: l => by rw [core_ns]; simp only [subs, subs_core n l]
  | .declPar _ _ _ _ :: l => by rw [core_par]; simp only [subs, subs_core n l]
  | .set _ _ :: l => by rw [core_set]; simp only [subs, subs_core n l]
  | .get _ :: l => by rw [core_get]; simp only [subs, subs_core n l]
theorem parsIn_core (n : Nat) : ∀ l : List Op, parsIn n (core l) = parsIn n l
  | [] => rfl
  | .declNs _ _ _ :: l => by rw [core_ns]; simp only [parsIn, parsIn_core n l]
  | .declPar _ _ _ _ :: l => by rw [core_par]; simp only [parsIn, parsIn_core n l]
  | .set _ _ :: l => by rw [core_set]; simp only [parsIn, parsIn_core n l]
  | .get _ :: l => by rw [core_get]; simp only [parsIn, parsIn_core n l]
theorem nsIdOf_core (n : Nat) : ∀ l : List Op, nsIdOf n (core l) = nsIdOf n l
  | [] => rfl
  | .declNs _ _ _ :: l => by rw [core_ns]; simp only [nsIdOf, nsIdOf_core n l]
  | .declPar _ _ _ _ :: l => by rw [core_par]; simp only [nsIdOf, nsIdOf_core n l]
  | .set _ _ :: l => by rw [core_set]; simp only [nsIdOf, nsIdOf_core n l]
  | .get _ :: l => by rw [core_get]; simp only [nsIdOf, nsIdOf_core n l]
theorem parentOf_core (n : Nat) : ∀ l : List Op, parentOf n (core l) = parentOf n l
  | [] => rfl
  | .declNs _ _ _ :: l => by rw [core_ns]; simp only [parentOf, parentOf_core n l]
  | .declPar _ _ _ _ :: l => by rw [core_par]; simp only [parentOf, parentOf_core n l]
  | .set _ _ :: l => by rw [core_set]; simp only [parentOf, parentOf_core n l]
  | .get _ :: l => by rw [core_get]; simp only [parentOf, parentOf_core n l]
theorem parIdOf_core (p : Nat) : ∀ l : List Op, parIdOf p (core l) = parIdOf p l
  | [] => rfl
  | .declNs _ _ _ :: l => by rw [core_ns]; simp only [parIdOf, parIdOf_core p l]
  | .declPar _ _ _ _ :: l => by rw [core_par]; simp only [parIdOf, parIdOf_core p l]
  | .set _ _ :: l => by rw [core_set]; simp only [parIdOf, parIdOf_core p l]
  | .get _ :: l => by rw [core_get]; simp only [parIdOf, parIdOf_core p l]
theorem nsOf_core (p : Nat) : ∀ l : List Op, nsOf p (core l) = nsOf p l
  | [] => rfl
  | .declNs _ _ _ :: l => by rw [core_ns]; simp only [nsOf, nsOf_core p l]
  | .declPar _ _ _ _ :: l => by rw [core_par]; simp only [nsOf, nsOf_core p l]
  | .set _ _ :: l => by rw [core_set]; simp only [nsOf, nsOf_core p l]
  | .get _ :: l => by rw [core_get]; simp only [nsOf, nsOf_core p l]
theorem declOf_core (p : Nat) : ∀ l : List Op, declOf p (core l) = (declOf p l).map canon
  | [] => rfl
  | .declNs _ _ _ :: l => by rw [core_ns]; simp only [declOf, declOf_core p l]
  | .declPar q _ _ d :: l => by
    rw [core_par]; simp only [declOf, declOf_core p l]
    by_cases hq : q = p <;> simp [hq]
  | .set _ _ :: l => by rw [core_set]; simp only [declOf, declOf_core p l]
  | .get _ :: l => by rw [core_get]; simp only [declOf, declOf_core p l]

theorem fits_canon (d : Decl) (v : AVal) : Fits (canon d) v ↔ Fits d v := by
  cases d <;> cases v <;> simp [canon, Fits]

/-- The second history declares what the first does. -/
structure Same (l l' : List Op) : Prop where
  nss : nss l' = nss l
  pars : pars l' = pars l
  subs : ∀ n, subs n l' = subs n l
  parsIn : ∀ n, parsIn n l' = parsIn n l
  nsIdOf : ∀ n, nsIdOf n l' = nsIdOf n l
  parentOf : ∀ n, parentOf n l' = parentOf n l
  parIdOf : ∀ p, parIdOf p l' = parIdOf p l
  nsOf : ∀ p, nsOf p l' = nsOf p l
  fits : ∀ p d, declOf p l = some d → ∃ d', declOf p l' = some d' ∧ canon d' = canon d

theorem same_of_decls {l l' : List Op} (h : Spec.SameDecls l l') : Same l l' := by
  have hc : core l' = core l := by unfold core; rw [h]
  constructor
  · rw [← nss_core l', hc, nss_core]
  · rw [← pars_core l', hc, pars_core]
  · intro n; rw [← subs_core n l', hc, subs_core]
  · intro n; rw [← parsIn_core n l', hc, parsIn_core]
  · intro n; rw [← nsIdOf_core n l', hc, nsIdOf_core]
  · intro n; rw [← parentOf_core n l', hc, parentOf_core]
  · intro n; rw [← parIdOf_core n l', hc, parIdOf_core]
  · intro n; rw [← nsOf_core n l', hc, nsOf_core]
  · intro p d hd
    have := declOf_core p l'
    rw [hc, declOf_core, hd] at this
    cases hd' : declOf p l' with
    | none => rw [hd'] at this; cases this
    | some d' =>
      rw [hd'] at this
      simp only [Option.map_some, Option.some.injEq] at this
      exact ⟨d', rfl, this.symm⟩

theorem same_set {l l' : List Op} (h : Same l l') (p : Nat) (v : AVal) : Same l (.set p v :: l') :=
  ⟨h.nss, h.pars, h.subs, h.parsIn, h.nsIdOf, h.parentOf, h.parIdOf, h.nsOf, h.fits⟩

/-! ## Reading bytes -/

/-- The bytes `e` are next. -/
def At (m : Mem) (e : List Nat) : Prop := m.buf.drop m.index = e ∧ m.index ≤ m.buf.length

def adv (m : Mem) (k : Nat) : Mem := { m with index := m.index + k }

theorem At.adv {m : Mem} {d e : List Nat} (h : At m (d ++ e)) : At (adv m d.length) e := by
  obtain ⟨h1, h2⟩ := h
  have hl : m.buf.length - m.index = d.length + e.length := by
    rw [← List.length_drop, h1, List.length_append]
  constructor
  · show m.buf.drop (m.index + d.length) = e
    rw [← List.drop_drop, h1, List.drop_left]
  · show m.index + d.length ≤ m.buf.length
    omega

theorem rd_spec {W B : Nat} {m : Mem} {d e : List Nat} (h : At m (d ++ e)) (hW : m.buf.length + B < W) (hB : d.length ≤ B) :
    rd W d.length m = .ok (some d, adv m d.length) := by
  have h2 := h.adv.2
  simp only [Msgpack.adv] at h2
  unfold rd
  rw [CmpMem.read_eq (by unfold CmpMem.NoWrap; have := h.2; omega), if_pos h2, h.1, List.take_left]
  rfl

theorem be_length : ∀ k x : Nat, (Spec.be k x).length = k
  | 0, _ => rfl
  | k + 1, x => by simp [Spec.be, be_length k]

theorem beNum_be : ∀ k x : Nat, beNum (Spec.be k x) = x % 256 ^ k
  | 0, x => by simp [Spec.be, beNum, Nat.mod_one]
  | k + 1, x => by
    have ih := beNum_be k (x / 256)
    unfold beNum at ih ⊢
    simp only [Spec.be, List.foldl_append, List.foldl_cons, List.foldl_nil, ih]
    rw [Nat.pow_succ, Nat.mul_comm (256 ^ k) 256, Nat.mod_mul]
    omega

theorem rdNum_spec {W B k x : Nat} {m : Mem} {e : List Nat} {mk : Nat → Obj} (h : At m (Spec.be k x ++ e)) (hW : m.buf.length + B < W)
    (hB : k ≤ B) (hx : x < 256 ^ k) : rdNum W k mk m = .ok (some (mk x), adv m k) := by
  have := rd_spec h hW (by rw [be_length]; exact hB)
  rw [be_length] at this
  simp only [rdNum, this, bind, Except.bind, pure, Except.pure, beNum_be, Nat.mod_eq_of_lt hx]

theorem beNum_one (t : Nat) : beNum [t] = t := by simp [beNum]

theorem adv_adv (m : Mem) (a b : Nat) : adv (adv m a) b = adv m (a + b) := by simp [adv, Nat.add_assoc]
theorem adv_buf (m : Mem) (a : Nat) : (adv m a).buf = m.buf := rfl

theorem readObject_tag {W B t : Nat} {m : Mem} {e : List Nat} (h : At m (t :: e)) (hW : m.buf.length + B < W) (hB : 1 ≤ B) :
    rd W 1 m = .ok (some [t], adv m 1) := rd_spec (d := [t]) h hW hB

/-- A marker byte followed by a number. -/
theorem tag_num {W B t k x : Nat} {m : Mem} {e : List Nat} {mk : Nat → Obj} (h : At m (t :: (Spec.be k x ++ e)))
    (hW : m.buf.length + B < W) (h1 : 1 ≤ B) (hB : k ≤ B) (hx : x < 256 ^ k)
    (hr : rd W 1 m = .ok (some [t], adv m 1) → readObject W m = rdNum W k mk (adv m 1)) :
    readObject W m = .ok (some (mk x), adv m (1 + k)) ∧ At (adv m (1 + k)) e := by
  have ha : At (adv m 1) (Spec.be k x ++ e) := At.adv (d := [t]) h
  have ha2 := At.adv ha
  rw [be_length, adv_adv] at ha2
  refine ⟨?_, ha2⟩
  rw [hr (readObject_tag h hW h1), rdNum_spec ha hW hB hx, adv_adv]

theorem read_str {W B : Nat} {m : Mem} {s e : List Nat} (h : At m (Spec.str s ++ e)) (hW : m.buf.length + B < W) (hB : 4 ≤ B)
    (hs : s.length < 2 ^ 32) :
    ∃ k, readObject W m = .ok (some (.str s.length), adv m k) ∧ At (adv m k) (s ++ e) := by
  unfold Spec.str at h
  by_cases h1 : s.length < 32
  · rw [if_pos h1] at h
    have hand : (160 + s.length) &&& 31 = s.length := by
      rw [show (31 : Nat) = 2 ^ 5 - 1 from rfl, Nat.and_two_pow_sub_one_eq_mod]; omega
    have h : At m ((160 + s.length) :: (s ++ e)) := by simpa using h
    refine ⟨1, ?_, At.adv (d := [160 + s.length]) h⟩
    simp only [readObject, readObject_tag h hW (by omega), bind, Except.bind, pure, Except.pure, beNum_one, hand]
    rw [if_neg (by omega), if_neg (by omega), if_neg (by omega), if_pos (by omega)]
  rw [if_neg h1] at h
  by_cases h2 : s.length < 256
  · rw [if_pos h2, List.cons_append, List.cons_append, List.append_assoc] at h
    exact ⟨_, tag_num (k := 1) h hW (by omega) (by omega) h2 (fun ht => by
      simp only [readObject, ht, bind, Except.bind, beNum_one]; rfl)⟩
  rw [if_neg h2] at h
  by_cases h3 : s.length < 65536
  · rw [if_pos h3, List.cons_append, List.cons_append, List.append_assoc] at h
    exact ⟨_, tag_num (k := 2) h hW (by omega) (by omega) h3 (fun ht => by
      simp only [readObject, ht, bind, Except.bind, beNum_one]; rfl)⟩
  · rw [if_neg h3, List.cons_append, List.cons_append, List.append_assoc] at h
    exact ⟨_, tag_num (k := 4) h hW (by omega) (by omega) (by omega) (fun ht => by
      simp only [readObject, ht, bind, Except.bind, beNum_one]; rfl)⟩

theorem read_map {W B n : Nat} {m : Mem} {e : List Nat} (h : At m (Spec.map n ++ e)) (hW : m.buf.length + B < W) (hB : 4 ≤ B)
    (hs : n < 2 ^ 32) :
    ∃ k, readObject W m = .ok (some (.map n), adv m k) ∧ At (adv m k) e := by
  unfold Spec.map at h
  by_cases h1 : n < 16
  · rw [if_pos h1] at h
    have hand : (128 + n) &&& 15 = n := by
      rw [show (15 : Nat) = 2 ^ 4 - 1 from rfl, Nat.and_two_pow_sub_one_eq_mod]; omega
    refine ⟨1, ?_, At.adv (d := [128 + n]) h⟩
    simp only [readObject, readObject_tag (t := 128 + n) h hW (by omega), bind, Except.bind, pure, Except.pure, beNum_one, hand]
    rw [if_neg (by omega), if_pos (by omega)]
  rw [if_neg h1] at h
  by_cases h3 : n < 65536
  · rw [if_pos h3, List.cons_append] at h
    exact ⟨_, tag_num (k := 2) h hW (by omega) (by omega) h3 (fun ht => by
      simp only [readObject, ht, bind, Except.bind, beNum_one]; rfl)⟩
  · rw [if_neg h3, List.cons_append] at h
    exact ⟨_, tag_num (k := 4) h hW (by omega) (by omega) (by omega) (fun ht => by
      simp only [readObject, ht, bind, Except.bind, beNum_one]; rfl)⟩

theorem read_array {W B n : Nat} {m : Mem} {e : List Nat} (h : At m (Spec.array n ++ e)) (hW : m.buf.length + B < W) (hB : 4 ≤ B)
    (hs : n < 2 ^ 32) :
    ∃ k, readObject W m = .ok (some (.array n), adv m k) ∧ At (adv m k) e := by
  unfold Spec.array at h
  by_cases h1 : n < 16
  · rw [if_pos h1] at h
    have hand : (144 + n) &&& 15 = n := by
      rw [show (15 : Nat) = 2 ^ 4 - 1 from rfl, Nat.and_two_pow_sub_one_eq_mod]; omega
    refine ⟨1, ?_, At.adv (d := [144 + n]) h⟩
    simp only [readObject, readObject_tag (t := 144 + n) h hW (by omega), bind, Except.bind, pure, Except.pure, beNum_one, hand]
    rw [if_neg (by omega), if_neg (by omega), if_pos (by omega)]
  rw [if_neg h1] at h
  by_cases h3 : n < 65536
  · rw [if_pos h3, List.cons_append] at h
    exact ⟨_, tag_num (k := 2) h hW (by omega) (by omega) h3 (fun ht => by
      simp only [readObject, ht, bind, Except.bind, beNum_one]; rfl)⟩
  · rw [if_neg h3, List.cons_append] at h
    exact ⟨_, tag_num (k := 4) h hW (by omega) (by omega) (by omega) (fun ht => by
      simp only [readObject, ht, bind, Except.bind, beNum_one]; rfl)⟩

theorem read_float {W B : Nat} {v : W32} {m : Mem} {e : List Nat} (h : At m (Spec.float v ++ e)) (hW : m.buf.length + B < W) (hB : 4 ≤ B) :
    readObject W m = .ok (some (.float v.toNat), adv m 5) ∧ At (adv m 5) e := by
  unfold Spec.float at h
  rw [List.cons_append] at h
  exact tag_num (k := 4) h hW (by omega) (by omega) v.isLt (fun ht => by
    simp only [readObject, ht, bind, Except.bind, beNum_one]; rfl)

theorem read_int {W B : Nat} {v : W32} {m : Mem} {e : List Nat} (h : At m (Spec.int32 v ++ e)) (hW : m.buf.length + B < W) (hB : 4 ≤ B) :
    readObject W m = .ok (some (.s32 v.toNat), adv m 5) ∧ At (adv m 5) e := by
  unfold Spec.int32 at h
  rw [List.cons_append] at h
  exact tag_num (k := 4) h hW (by omega) (by omega) v.isLt (fun ht => by
    simp only [readObject, ht, bind, Except.bind, beNum_one]; rfl)

theorem read_bool {W B : Nat} {b : Bool} {m : Mem} {e : List Nat} (h : At m (Spec.bool b ++ e)) (hW : m.buf.length + B < W) (hB : 4 ≤ B) :
    readObject W m = .ok (some (.bool b), adv m 1) ∧ At (adv m 1) e := by
  unfold Spec.bool at h
  have ht := readObject_tag h hW (by omega)
  refine ⟨?_, At.adv (d := [_]) h⟩
  simp only [readObject, ht, bind, Except.bind, beNum_one]
  cases b <;> rfl

theorem getVector_spec {W B : Nat} {en : Env} (hB : 4 ≤ B) : ∀ {vs acc : List W32} {s : RS} {e : List Nat},
    At s.mem (vs.flatMap Spec.float ++ e) → s.mem.buf.length + B < W →
    ∃ k, getVector W en vs.length false acc s = .ok (some (acc ++ vs), { s with mem := adv s.mem k }) ∧ At (adv s.mem k) e
  | [], acc, s, e, h, _ => ⟨0, by simp [getVector, adv, pure, Except.pure], h⟩
  | v :: vs, acc, s, e, h, hW => by
    rw [List.flatMap_cons, List.append_assoc] at h
    obtain ⟨hr, ha⟩ := read_float h hW hB
    obtain ⟨k, hk, hak⟩ := getVector_spec (en := en) (acc := acc ++ [v]) (s := { s with mem := adv s.mem 5 }) hB ha hW
    refine ⟨5 + k, ?_, by rw [← adv_adv]; exact hak⟩
    simp only [List.length_cons, getVector, hr, bind, Except.bind, Bool.false_eq_true, if_false, getFloat]
    rw [BitVec.ofNat_toNat, BitVec.setWidth_eq, hk]
    simp [adv_adv]

/-! ## Reading a parameter -/

/-- The next object has the value `v`, and loading it into `p` is setting `p` to `v`. -/
theorem readParam_spec {W B fuel : Nat} {en : Env} (hen : ∀ k, en.alloc k = true) (hB : 65536 ≤ B) {lh : List Op} {s : RS} {p : Nat}
    {v : AVal} {d : Decl} {e : List Nat} (hi : Inv lh s.heap) (hp : Proper lh) (hf : lh.length ≤ fuel) (hd : declOf p lh = some d)
    (hfit : Fits d v) (hv : ∀ x, v = .varVector x → x.length < 65536) (hv' : ∀ x, v = .vector x → x.length < 65536)
    (hroom : ∀ t b j k, v = .string t → d = .string b j k → t.length < b.length)
    (hat : At s.mem (Spec.value v ++ e)) (hW : s.mem.buf.length + B < W) :
    ∃ o k k' h', readObject W s.mem = .ok (some o, adv s.mem k) ∧ (∀ n, o ≠ .map n) ∧
      readParam W fuel en p o { s with mem := adv s.mem k } = .ok (true, { s with mem := adv s.mem (k + k'), heap := h' }) ∧
      At (adv s.mem (k + k')) e ∧ Inv (.set p v :: lh) h' := by
  have hval := hi.val p d hd
  obtain ⟨h', hset, hinv⟩ := set_step_inv hi (show Proper (.set p v :: lh) from ⟨⟨d, hd, hfit⟩, hp⟩) hf
  cases d with
  | scalar j dv =>
    cases v <;> simp only [Fits] at hfit
    rename_i v
    cases hx : s.heap.val p <;> rw [hx] at hval <;> simp only [valOK] at hval
    obtain ⟨hr, ha⟩ := read_float (B := B) hat hW (by omega)
    refine ⟨_, 5, 0, h', hr, by simp, ?_, ha, hinv⟩
    simp only [Param.set] at hset
    simp only [readParam, hx, getFloat, BitVec.ofNat_toNat, BitVec.setWidth_eq, hset, bind, Except.bind, pure, Except.pure]
  | integer j dv =>
    cases v <;> simp only [Fits] at hfit
    rename_i v
    cases hx : s.heap.val p <;> rw [hx] at hval <;> simp only [valOK] at hval
    obtain ⟨hr, ha⟩ := read_int (B := B) hat hW (by omega)
    refine ⟨_, 5, 0, h', hr, by simp, ?_, ha, hinv⟩
    simp only [Param.set] at hset
    simp only [readParam, hx, asInt, BitVec.ofNat_toNat, BitVec.setWidth_eq, hset, bind, Except.bind, pure, Except.pure]
  | boolean j dv =>
    cases v <;> simp only [Fits] at hfit
    rename_i v
    cases hx : s.heap.val p <;> rw [hx] at hval <;> simp only [valOK] at hval
    obtain ⟨hr, ha⟩ := read_bool (B := B) hat hW (by omega)
    refine ⟨_, 1, 0, h', hr, by simp, ?_, ha, hinv⟩
    simp only [Param.set] at hset
    simp only [readParam, hx, hset, bind, Except.bind, pure, Except.pure]
  | vector b dim dv =>
    cases v <;> simp only [Fits] at hfit
    rename_i v
    cases hx : s.heap.val p <;> rw [hx] at hval <;> simp only [valOK] at hval
    rename_i buf dim'
    simp only [Spec.value, Spec.floats, List.append_assoc] at hat
    have hlen := hv' v rfl
    obtain ⟨k, hr, ha⟩ := read_array (B := B) hat hW (by omega) (by omega)
    obtain ⟨k', hg, ha'⟩ := getVector_spec (B := B) (en := en) (acc := []) (s := { s with mem := adv s.mem k }) (by omega) ha hW
    refine ⟨_, k, k', h', hr, by simp, ?_, by rw [← adv_adv]; exact ha', hinv⟩
    simp only [Param.set] at hset
    have hdim : (v.length == dim') = true := by rw [hval.1, hfit]; simp
    simp only [readParam, hx, readVec, hdim, hen, if_true, Bool.not_true, Bool.false_eq_true, if_false, hg, List.nil_append, hset,
      bind, Except.bind, pure, Except.pure, adv_adv]
  | varVector b j dv =>
    cases v <;> simp only [Fits] at hfit
    rename_i v
    cases hx : s.heap.val p <;> rw [hx] at hval <;> simp only [valOK] at hval
    rename_i buf dim'
    simp only [Spec.value, Spec.floats, List.append_assoc] at hat
    have hlen := hv v rfl
    obtain ⟨k, hr, ha⟩ := read_array (B := B) hat hW (by omega) (by omega)
    obtain ⟨k', hg, ha'⟩ := getVector_spec (B := B) (en := en) (acc := []) (s := { s with mem := adv s.mem k }) (by omega) ha hW
    refine ⟨_, k, k', h', hr, by simp, ?_, by rw [← adv_adv]; exact ha', hinv⟩
    simp only [Param.set] at hset
    have hdim : (!decide (v.length > buf.length)) = true := by rw [hval.1]; simp; omega
    simp only [readParam, hx, readVec, hdim, hen, if_true, Bool.not_true, Bool.false_eq_true, if_false, hg, List.nil_append, hset,
      bind, Except.bind, pure, Except.pure, adv_adv]
  | string b j dv =>
    cases v <;> simp only [Fits] at hfit
    rename_i v
    cases hx : s.heap.val p <;> rw [hx] at hval <;> simp only [valOK] at hval
    rename_i buf len
    simp only [Spec.value] at hat
    have hlen := hroom v b j dv rfl rfl
    obtain ⟨k, hr, ha⟩ := read_str (B := B) hat hW (by omega) (by omega)
    have hrd := rd_spec (W := W) (B := B) ha hW (by omega)
    refine ⟨_, k, v.length, h', hr, by simp, ?_, by rw [← adv_adv]; exact ha.adv, hinv⟩
    simp only [Param.set, stringSet, Nat.mod_eq_of_lt hfit.2] at hset
    simp only [readParam, hx, if_neg (show ¬ v.length ≥ buf.length by omega), hen, Bool.not_true, Bool.false_eq_true, if_false, hrd, hset,
      bind, Except.bind, pure, Except.pure, adv_adv]

/-! ## Reading a namespace -/

theorem under_split {l : List Op} {n q : Nat} (hp : Proper l) (h : Under l n q) : q = n ∨ ∃ m ∈ subs n l, Under l m q := by
  induction h with
  | self => exact Or.inl rfl
  | @child m q' hm hq _ ih =>
    rcases ih with ih | ⟨m', h1, h2⟩
    · subst ih
      exact Or.inr ⟨m, (mem_subs hp).mpr ⟨hm, hq⟩, .self⟩
    · exact Or.inr ⟨m', h1, .child hm hq h2⟩

theorem under_sub {l : List Op} {n m q : Nat} (hp : Proper l) (hm : m ∈ subs n l) (h : Under l m q) : Under l n q := by
  induction h with
  | self =>
    obtain ⟨h1, h2⟩ := (mem_subs hp).mp hm
    exact .child h1 h2 .self
  | child h1 h2 _ ih => exact .child h1 h2 ih

/-- Outcome of loading: nothing reported, the parameters in `P` set to their value in `l`. -/
structure Loaded (l : List Op) (P : Nat → Prop) (lh : List Op) (e : List Nat) (s : RS) (r : Except Param.Err (Bool × RS)) (bytes : Nat) :
    Prop where
  res : ∃ (k : Nat) (h' : Heap) (S : List Op), r = .ok (true, { s with mem := adv s.mem k, heap := h' }) ∧ At (adv s.mem k) e ∧
    Inv (S ++ lh) h' ∧ Proper (S ++ lh) ∧ Same l (S ++ lh) ∧ S.length ≤ bytes ∧
    (∀ op ∈ S, ∃ p v, op = .set p v ∧ valueOf p l = some v ∧ P p) ∧ (∀ p v, P p → valueOf p l = some v → .set p v ∈ S)

/-- What is fixed during a load. -/
structure Ctx (W B fuel : Nat) (en : Env) (l : List Op) : Prop where
  alloc : ∀ k, en.alloc k = true
  big : 65536 ≤ B
  proper : Proper l
  distinct : Distinct l
  named : Spec.Named l
  sized : Spec.Sized l B
  room : Spec.RoomForNul l
  vec : ∀ p x, valueOf p l = some (.vector x) → x.length < 65536
  varVec : ∀ p x, valueOf p l = some (.varVector x) → x.length < 65536

theorem par_proper : ∀ {l : List Op} {p : Nat}, Proper l → p ∈ pars l → 0 ∉ parIdOf p l
  | [], _, _, h => by simp [pars] at h
  | .declNs _ _ _ :: l, p, hp, h => par_proper (l := l) hp.2.2.2 h
  | .set _ _ :: l, p, hp, h => par_proper (l := l) hp.2 h
  | .get _ :: l, p, hp, h => par_proper (l := l) hp.2 h
  | .declPar q _ _ _ :: l, p, hp, h => by
    simp only [parIdOf]
    by_cases hq : q = p
    · simp only [hq, if_true]; exact hp.2.2.1
    · simp only [hq, if_false]
      exact par_proper hp.2.2.2.2 ((List.mem_cons.mp h).resolve_left (fun e => hq e.symm))

theorem ns_proper : ∀ {l : List Op} {p : Nat}, Proper l → p ∈ nss l → 0 ∉ nsIdOf p l
  | [], _, _, h => by simp [nss] at h
  | .declPar _ _ _ _ :: l, p, hp, h => ns_proper (l := l) hp.2.2.2.2 h
  | .set _ _ :: l, p, hp, h => ns_proper (l := l) hp.2 h
  | .get _ :: l, p, hp, h => ns_proper (l := l) hp.2 h
  | .declNs q _ _ :: l, p, hp, h => by
    simp only [nsIdOf]
    by_cases hq : q = p
    · simp only [hq, if_true]; exact hp.2.2.1
    · simp only [hq, if_false]
      exact ns_proper hp.2.2.2 ((List.mem_cons.mp h).resolve_left (fun e => hq e.symm))

theorem find_par {W B fuel : Nat} {en : Env} {l lh : List Op} {h : Heap} (hc : Ctx W B fuel en l) (hs : Same l lh) (ht : Tree lh h)
    (hf : lh.length ≤ fuel) {n p : Nat} (hn : n ∈ nss l) (hp : p ∈ parsIn n l) :
    parFindLoop fuel h (parIdOf p l).length (some n) (parIdOf p l) = .ok (some p) := by
  have hpp := parsIn_pars hp
  obtain ⟨hne, hsl, _⟩ := hc.named.2 p hpp
  rw [parFindLoop_spec ht hf _ n _ (by rw [hs.nss]; exact hn) (par_proper hc.proper hpp) (Nat.le_refl _), components_single hsl]
  simp only [walkPar, if_neg hne, hs.parsIn, hs.parIdOf]
  congr 1
  cases hfd : (parsIn n l).find? (fun q => decide (parIdOf q l = parIdOf p l)) with
  | none => have := List.find?_eq_none.mp hfd p hp; simp at this
  | some q =>
    have h1 := List.mem_of_find?_eq_some hfd
    have h2 := List.find?_some hfd
    simp only [decide_eq_true_eq] at h2
    have := hc.distinct.2 q (parsIn_pars h1) p hpp (by
      rw [((mem_parsIn hc.proper).mp h1).2, ((mem_parsIn hc.proper).mp hp).2]) h2
    rw [this]

theorem find_sub {W B fuel : Nat} {en : Env} {l lh : List Op} {h : Heap} (hc : Ctx W B fuel en l) (hs : Same l lh) (ht : Tree lh h)
    (hf : lh.length ≤ fuel) {n m : Nat} (hn : n ∈ nss l) (hm : m ∈ subs n l) :
    nsFindLoop fuel h (nsIdOf m l).length (some n) (nsIdOf m l) = .ok (some m) := by
  have hmn := subs_nss hm
  obtain ⟨_, hpar⟩ := (mem_subs hc.proper).mp hm
  obtain ⟨hne, hsl, _⟩ := hc.named.1 m hmn (by rw [hpar]; simp)
  rw [nsFindLoop_spec ht hf _ n _ (by rw [hs.nss]; exact hn) (ns_proper hc.proper hmn) (Nat.le_refl _), components_single hsl,
    walk_cons hne]
  simp only [hs.subs, hs.nsIdOf]
  cases hfd : (subs n l).find? (fun q => decide (nsIdOf q l = nsIdOf m l)) with
  | none => have := List.find?_eq_none.mp hfd m hm; simp at this
  | some q =>
    have h1 := List.mem_of_find?_eq_some hfd
    have h2 := List.find?_some hfd
    simp only [decide_eq_true_eq] at h2
    obtain ⟨hq1, hq2⟩ := (mem_subs hc.proper).mp h1
    have := hc.distinct.1 q hq1 m hmn (by rw [hq2]; simp) (by rw [hq2, hpar]) h2
    rw [this]; rfl

theorem str_pos (s : Str) : s.length + 1 ≤ (Spec.str s).length := by
  unfold Spec.str
  rw [List.length_append]
  have : 1 ≤ (if s.length < 32 then [0xA0 + s.length]
    else if s.length < 256 then 0xD9 :: Spec.be 1 s.length
    else if s.length < 65536 then 0xDA :: Spec.be 2 s.length
    else 0xDB :: Spec.be 4 s.length).length := by
    split
    · simp
    · split
      · simp
      · split <;> simp
  omega

theorem map_pos (n : Nat) : 1 ≤ (Spec.map n).length := by
  unfold Spec.map
  split
  · simp
  · split <;> simp

theorem readPars {W B fuel : Nat} {en : Env} {l : List Op} (hc : Ctx W B fuel en l) {n : Nat} (hn : n ∈ nss l) :
    ∀ {ps : List Nat} {f : Nat} {lh : List Op} {s : RS} {e : List Nat}, (∀ p ∈ ps, p ∈ parsIn n l) →
    At s.mem (ps.flatMap (Spec.par l) ++ e) → s.mem.buf.length + B < W → Inv lh s.heap → Proper lh → Same l lh →
    (ps.flatMap (Spec.par l)).length ≤ f → lh.length + (ps.flatMap (Spec.par l)).length ≤ fuel →
    Loaded l (fun p => p ∈ ps) lh e s (readNs W fuel en f n (ps.filter (fun p => (valueOf p l).isSome)).length s)
      (ps.flatMap (Spec.par l)).length
  | [], f, lh, s, e, _, hat, _, hi, hpr, hs, _, _ => by
    refine ⟨0, s.heap, [], ?_, hat, hi, hpr, hs, by simp, by simp, by simp⟩
    cases f <;> rfl
  | p :: ps, f, lh, s, e, hmem, hat, hW, hi, hpr, hs, hf, hfuel => by
    rw [List.flatMap_cons] at hat hf hfuel ⊢
    cases hv : valueOf p l with
    | none =>
      have hnil : Spec.par l p = [] := by simp [Spec.par, hv]
      rw [hnil, List.nil_append] at hat hf hfuel ⊢
      obtain ⟨k, h', S, h1, h2, h3, h4, h5, h6, h7, h8⟩ := (readPars hc hn (fun q hq => hmem q (List.mem_cons_of_mem _ hq)) hat hW hi hpr hs hf hfuel).res
      refine ⟨k, h', S, ?_, h2, h3, h4, h5, h6, ?_, ?_⟩
      · rw [List.filter_cons_of_neg (by simp [hv])]; exact h1
      · intro op hop
        obtain ⟨q, v, e1, e2, e3⟩ := h7 op hop
        exact ⟨q, v, e1, e2, List.mem_cons_of_mem _ e3⟩
      · intro q v hq hqv
        rcases List.mem_cons.mp hq with rfl | hq
        · rw [hv] at hqv; cases hqv
        · exact h8 q v hq hqv
    | some v =>
      have hpar : Spec.par l p = Spec.str (parIdOf p l) ++ Spec.value v := by simp [Spec.par, hv]
      rw [hpar] at hat hf hfuel ⊢
      have hpi := hmem p List.mem_cons_self
      have hpp := parsIn_pars hpi
      have hname := hc.named.2 p hpp
      have hpos := str_pos (parIdOf p l)
      simp only [List.append_assoc] at hat
      simp only [List.length_append] at hf hfuel ⊢
      cases f with
      | zero => omega
      | succ f =>
      obtain ⟨k1, r1, a1⟩ := read_str (B := B) hat hW (by have := hc.big; omega) (by have := hname.2.2; omega)
      have r2 := rd_spec (W := W) (B := B) (d := parIdOf p l) a1 hW (hc.sized.2 p hpp)
      have a2 := a1.adv
      rw [adv_adv] at r2 a2
      obtain ⟨d, hd, hfit⟩ := fits_value hc.proper hv
      obtain ⟨d', hd', hcan⟩ := hs.fits p d hd
      have hfit' : Fits d' v := by rw [← fits_canon, hcan, fits_canon]; exact hfit
      have hroom : ∀ t b j k, v = .string t → d' = .string b j k → t.length < b.length := by
        intro t b j k hvt hdb
        subst hvt; subst hdb
        cases d <;> simp only [canon] at hcan <;> try cases hcan
        rename_i b2 j2 k2
        have hb := hc.room p t b2 j2 k2 hv hd
        have : b.length = b2.length := by simpa using hcan
        omega
      obtain ⟨o, k2, k3, h1, q1, q2, q3, q4, q5⟩ := readParam_spec (W := W) (B := B) (fuel := fuel) (s := { s with mem := adv s.mem (k1 + (parIdOf p l).length) })
        hc.alloc hc.big hi hpr (by omega) hd' hfit' (fun x hx => hc.varVec p x (by rw [hv, hx])) (fun x hx => hc.vec p x (by rw [hv, hx]))
        hroom a2 hW
      have hfind := find_par hc hs hi.tree (by omega) hn hpi
      have hproper : Proper (.set p v :: lh) := ⟨⟨d', hd', hfit'⟩, hpr⟩
      obtain ⟨k, h', S, g1, g2, g3, g4, g5, g6, g7, g8⟩ := (readPars hc hn (f := f) (lh := .set p v :: lh)
        (s := { s with mem := adv (adv s.mem (k1 + (parIdOf p l).length)) (k2 + k3), heap := h1 })
        (fun q hq => hmem q (List.mem_cons_of_mem _ hq)) q4 hW q5 hproper (same_set hs p v) (by omega)
        (by simp only [List.length_cons]; omega)).res
      refine ⟨k1 + (parIdOf p l).length + (k2 + k3) + k, h', S ++ [.set p v], ?_, ?_, ?_, ?_, ?_, ?_, ?_, ?_⟩
      · rw [List.filter_cons_of_pos (by simp [hv]), List.length_cons]
        have hmod : ((parIdOf p l).length + 1) % 2 ^ 32 = (parIdOf p l).length + 1 := Nat.mod_eq_of_lt hname.2.2
        simp only [readNs, r1, r2, hc.alloc, Bool.not_true, Bool.false_eq_true, if_false, adv_adv, bind, Except.bind, hmod,
          Nat.lt_irrefl]
        simp only at q1
        simp only [q1]
        cases o <;> first | exact absurd rfl (q2 _) | (simp only [hfind, q3, if_true]; rw [g1]; simp [adv_adv])
      · rw [← adv_adv, ← adv_adv]; exact g2
      · simpa using g3
      · simpa using g4
      · simpa using g5
      · rw [List.length_append, List.length_singleton]; omega
      · intro op hop
        rcases List.mem_append.mp hop with h | h
        · obtain ⟨q, w, e1, e2, e3⟩ := g7 op h
          exact ⟨q, w, e1, e2, List.mem_cons_of_mem _ e3⟩
        · rw [List.mem_singleton.mp h]
          exact ⟨p, v, rfl, hv, List.mem_cons_self⟩
      · intro q w hq hqw
        rcases List.mem_cons.mp hq with rfl | hq
        · rw [hv] at hqw; injection hqw with hqw; subst hqw; simp
        · exact List.mem_append_left _ (g8 q w hq hqw)

/-- Loading the document of a namespace: sub-namespaces `ms`, then all parameters. -/
theorem readSubs {W B fuel : Nat} {en : Env} {l : List Op} (hc : Ctx W B fuel en l) {n : Nat} (hn : n ∈ nss l) {t : Nat → List Nat}
    (ih : ∀ m ∈ subs n l, ∀ (f : Nat) (lh : List Op) (s : RS) (e : List Nat), At s.mem (t m ++ e) → s.mem.buf.length + B < W →
      Inv lh s.heap → Proper lh → Same l lh → (t m).length ≤ f → lh.length + (t m).length ≤ fuel →
      ∃ k, readObject W s.mem = .ok (some (.map (Spec.entries l m)), adv s.mem k) ∧
        Loaded l (fun p => p ∈ pars l ∧ Under l m (nsOf p l)) lh e { s with mem := adv s.mem k }
          (readNs W fuel en f m (Spec.entries l m) { s with mem := adv s.mem k }) (t m).length) :
    ∀ {ms : List Nat} {f : Nat} {lh : List Op} {s : RS} {e : List Nat}, (∀ m ∈ ms, m ∈ subs n l) →
    At s.mem (ms.flatMap (fun m => Spec.str (nsIdOf m l) ++ t m) ++ ((parsIn n l).flatMap (Spec.par l) ++ e)) →
    s.mem.buf.length + B < W → Inv lh s.heap → Proper lh → Same l lh →
    (ms.flatMap (fun m => Spec.str (nsIdOf m l) ++ t m)).length + ((parsIn n l).flatMap (Spec.par l)).length ≤ f →
    lh.length + ((ms.flatMap (fun m => Spec.str (nsIdOf m l) ++ t m)).length + ((parsIn n l).flatMap (Spec.par l)).length) ≤ fuel →
    Loaded l (fun p => p ∈ parsIn n l ∨ ∃ m ∈ ms, p ∈ pars l ∧ Under l m (nsOf p l)) lh e s
      (readNs W fuel en f n (ms.length + ((parsIn n l).filter (fun p => (valueOf p l).isSome)).length) s)
      ((ms.flatMap (fun m => Spec.str (nsIdOf m l) ++ t m)).length + ((parsIn n l).flatMap (Spec.par l)).length)
  | [], f, lh, s, e, _, hat, hW, hi, hpr, hs, hf, hfuel => by
    simp only [List.flatMap_nil, List.nil_append, List.length_nil, Nat.zero_add] at hat hf hfuel ⊢
    obtain ⟨k, h', S, h1, h2, h3, h4, h5, h6, h7, h8⟩ := (readPars hc hn (fun _ h => h) hat hW hi hpr hs hf hfuel).res
    refine ⟨k, h', S, h1, h2, h3, h4, h5, h6, ?_, ?_⟩
    · intro op hop
      obtain ⟨q, v, e1, e2, e3⟩ := h7 op hop
      exact ⟨q, v, e1, e2, Or.inl e3⟩
    · rintro q v (hq | ⟨_, hm, _⟩) hv
      · exact h8 q v hq hv
      · cases hm
  | m :: ms, f, lh, s, e, hmem, hat, hW, hi, hpr, hs, hf, hfuel => by
    rw [List.flatMap_cons] at hat hf hfuel ⊢
    have hmi := hmem m List.mem_cons_self
    have hmn := subs_nss hmi
    obtain ⟨_, hparent⟩ := (mem_subs hc.proper).mp hmi
    have hname := hc.named.1 m hmn (by rw [hparent]; simp)
    have hpos := str_pos (nsIdOf m l)
    simp only [List.append_assoc] at hat
    simp only [List.length_append] at hf hfuel ⊢
    cases f with
    | zero => omega
    | succ f =>
    obtain ⟨k1, r1, a1⟩ := read_str (B := B) hat hW (by have := hc.big; omega) (by have := hname.2.2; omega)
    have r2 := rd_spec (W := W) (B := B) (d := nsIdOf m l) a1 hW (hc.sized.1 m hmn).1
    have a2 := a1.adv
    rw [adv_adv] at r2 a2
    obtain ⟨k2, o1, hl⟩ := ih m hmi f lh { s with mem := adv s.mem (k1 + (nsIdOf m l).length) } _ a2 hW hi hpr hs
      (by omega) (by omega)
    obtain ⟨k3, h1, S1, q1, q2, q3, q4, q5, q6, q7, q8⟩ := hl.res
    have hfind := find_sub hc hs hi.tree (by omega) hn hmi
    obtain ⟨k, h', S, g1, g2, g3, g4, g5, g6, g7, g8⟩ := (readSubs hc hn ih (ms := ms) (f := f) (lh := S1 ++ lh)
      (s := { s with mem := adv (adv (adv s.mem (k1 + (nsIdOf m l).length)) k2) k3, heap := h1 })
      (fun q hq => hmem q (List.mem_cons_of_mem _ hq)) q2 hW q3 q4 q5 (by omega)
      (by rw [List.length_append]; omega)).res
    refine ⟨k1 + (nsIdOf m l).length + k2 + k3 + k, h', S ++ S1, ?_, ?_, ?_, ?_, ?_, ?_, ?_, ?_⟩
    · rw [List.length_cons, show ms.length + 1 + ((parsIn n l).filter (fun p => (valueOf p l).isSome)).length =
        ms.length + ((parsIn n l).filter (fun p => (valueOf p l).isSome)).length + 1 by omega]
      have hmod : ((nsIdOf m l).length + 1) % 2 ^ 32 = (nsIdOf m l).length + 1 := Nat.mod_eq_of_lt hname.2.2
      simp only [readNs, r1, r2, hc.alloc, Bool.not_true, Bool.false_eq_true, if_false, adv_adv, bind, Except.bind, hmod,
        Nat.lt_irrefl]
      simp only at o1 q1
      simp only [o1, hfind, q1, if_true]
      simp only [adv_adv] at g1 ⊢
      rw [g1]
    · simpa [adv_adv] using g2
    · simpa using g3
    · simpa using g4
    · simpa using g5
    · rw [List.length_append]; omega
    · intro op hop
      rcases List.mem_append.mp hop with h | h
      · obtain ⟨q, w, e1, e2, e3⟩ := g7 op h
        refine ⟨q, w, e1, e2, ?_⟩
        rcases e3 with e3 | ⟨m', e3, e4⟩
        · exact Or.inl e3
        · exact Or.inr ⟨m', List.mem_cons_of_mem _ e3, e4⟩
      · obtain ⟨q, w, e1, e2, e3⟩ := q7 op h
        exact ⟨q, w, e1, e2, Or.inr ⟨m, List.mem_cons_self, e3⟩⟩
    · rintro q w (hq | ⟨m', hm', hq⟩) hw
      · exact List.mem_append_left _ (g8 q w (Or.inl hq) hw)
      · rcases List.mem_cons.mp hm' with rfl | hm'
        · exact List.mem_append_right _ (q8 q w hq hw)
        · exact List.mem_append_left _ (g8 q w (Or.inr ⟨m', hm', hq⟩) hw)

theorem readTree {W B fuel : Nat} {en : Env} {l : List Op} (hc : Ctx W B fuel en l) : ∀ (d n : Nat), n ∈ nss l →
    l.length < d + (chain n l).length → ∀ (f : Nat) (lh : List Op) (s : RS) (e : List Nat), At s.mem (Spec.tree l d n ++ e) →
    s.mem.buf.length + B < W → Inv lh s.heap → Proper lh → Same l lh → (Spec.tree l d n).length ≤ f →
    lh.length + (Spec.tree l d n).length ≤ fuel →
    ∃ k, readObject W s.mem = .ok (some (.map (Spec.entries l n)), adv s.mem k) ∧
      Loaded l (fun p => p ∈ pars l ∧ Under l n (nsOf p l)) lh e { s with mem := adv s.mem k }
        (readNs W fuel en f n (Spec.entries l n) { s with mem := adv s.mem k }) (Spec.tree l d n).length
  | 0, n, _, hch => by have := chain_length n l; omega
  | d + 1, n, hn, hch => by
    intro f lh s e hat hW hi hpr hs hf hfuel
    have ih := fun m (hm : m ∈ subs n l) => readTree hc d m (subs_nss hm) (by
      have hcm := chain_child hc.proper hm
      rw [hcm]; simp; omega)
    simp only [Spec.tree, List.append_assoc] at hat
    simp only [Spec.tree, List.length_append] at hf hfuel ⊢
    have hpos := map_pos (Spec.entries l n)
    obtain ⟨k0, r0, a0⟩ := read_map (B := B) hat hW (by have := hc.big; omega) (hc.sized.1 n hn).2
    refine ⟨k0, r0, ?_⟩
    obtain ⟨k, h', S, h1, h2, h3, h4, h5, h6, h7, h8⟩ := (readSubs hc hn ih (ms := subs n l) (f := f) (lh := lh)
      (s := { s with mem := adv s.mem k0 }) (fun _ h => h) a0 hW hi hpr hs (by omega) (by omega)).res
    refine ⟨k, h', S, h1, h2, h3, h4, h5, by omega, ?_, ?_⟩
    · intro op hop
      obtain ⟨q, w, e1, e2, e3⟩ := h7 op hop
      refine ⟨q, w, e1, e2, ?_⟩
      rcases e3 with e3 | ⟨m, hm, hq, hu⟩
      · obtain ⟨i1, i2⟩ := (mem_parsIn hc.proper).mp e3
        exact ⟨i1, by rw [i2]; exact .self⟩
      · exact ⟨hq, under_sub hc.proper hm hu⟩
    · rintro q w ⟨hq, hu⟩ hw
      apply h8 q w _ hw
      rcases under_split hc.proper hu with h | ⟨m, hm, h⟩
      · exact Or.inl ((mem_parsIn hc.proper).mpr ⟨hq, h⟩)
      · exact Or.inr ⟨m, hm, hq, h⟩

end Verif.Msgpack
