import Verif.Msgpack.ReadLemmas

/-!
# Loading arbitrary bytes: lemmas
-/

namespace Verif.Msgpack

open Verif.Param
open Verif.CmpMem (Mem)

/-- The reader is inside the buffer `buf`. -/
def Inside (buf : List Nat) (m : Mem) : Prop := m.buf = buf ∧ m.index ≤ buf.length

/-- Sizes in objects are 32-bit numbers. -/
def Small : Obj → Prop
  | .str k | .array k | .map k => k < 2 ^ 32
  | _ => True

/-- The read ends inside the buffer; an object takes at least `c` bytes. -/
def Good (buf : List Nat) (c : Nat) (m : Mem) (x : Except Param.Err (Option Obj × Mem)) : Prop :=
  ∃ r m', x = .ok (r, m') ∧ Inside buf m' ∧ m.index ≤ m'.index ∧ ∀ o, r = some o → Small o ∧ m.index + c ≤ m'.index

theorem rd_total {W n : Nat} {buf : List Nat} {m : Mem} (hm : Inside buf m) (hW : buf.length + n < W) :
    rd W n m = .ok (none, m) ∨
      ∃ d, rd W n m = .ok (some d, adv m n) ∧ d.length = n ∧ (∀ x ∈ d, x ∈ buf) ∧ m.index + n ≤ buf.length := by
  obtain ⟨rfl, hi⟩ := hm
  unfold rd
  rw [CmpMem.read_eq (by unfold CmpMem.NoWrap; omega)]
  by_cases hc : m.index + n ≤ m.buf.length
  · rw [if_pos hc]
    refine Or.inr ⟨_, rfl, by simp; omega, fun x hx => List.mem_of_mem_drop (List.mem_of_mem_take hx), hc⟩
  · rw [if_neg hc]; exact Or.inl rfl

theorem beNum_append (d : List Nat) (x : Nat) : beNum (d ++ [x]) = beNum d * 256 + x := by simp [beNum]

theorem beNum_lt : ∀ (k : Nat) (d : List Nat), d.length = k → (∀ x ∈ d, x < 256) → beNum d < 256 ^ k
  | 0, d, hl, _ => by rw [List.length_eq_zero_iff.mp hl]; simp [beNum]
  | k + 1, d, hl, h => by
    have hne : d ≠ [] := by rintro rfl; simp at hl
    have e := List.dropLast_concat_getLast hne
    rw [← e, beNum_append]
    have h1 := beNum_lt k d.dropLast (by simp; omega) (fun x hx => h x (List.dropLast_subset _ hx))
    have h2 := h _ (List.getLast_mem hne)
    rw [Nat.pow_succ]
    omega

theorem good_pure {buf : List Nat} {m : Mem} {o : Obj} (hm : Inside buf m) (ho : Small o) :
    Good buf 0 m (.ok (some o, m)) := ⟨_, _, rfl, hm, Nat.le_refl _, fun o' h => by injection h with h; subst h; exact ⟨ho, by omega⟩⟩

theorem good_none {buf : List Nat} {m : Mem} (hm : Inside buf m) : Good buf 0 m (.ok (none, m)) :=
  ⟨_, _, rfl, hm, Nat.le_refl _, fun o' h => by cases h⟩

theorem good_num {W n : Nat} {buf : List Nat} {m : Mem} {mk : Nat → Obj} (hb : ∀ x ∈ buf, x < 256) (hm : Inside buf m)
    (hW : buf.length + n < W) (hk : ∀ v, v < 256 ^ n → Small (mk v)) : Good buf 0 m (rdNum W n mk m) := by
  rcases rd_total hm hW with h | ⟨d, h, h1, h2, h3⟩
  · simp only [rdNum, h, bind, Except.bind, pure, Except.pure]; exact good_none hm
  · simp only [rdNum, h, bind, Except.bind, pure, Except.pure]
    refine ⟨_, _, rfl, ⟨hm.1, h3⟩, by simp [adv], fun o' e => ?_⟩
    injection e with e; subst e
    exact ⟨hk _ (beNum_lt n d h1 (fun x hx => hb x (h2 x hx))), by simp [adv]⟩

theorem good_ext {W n : Nat} {buf : List Nat} {m : Mem} (hm : Inside buf m)
    (hW : buf.length + n < W) (hW1 : buf.length + 1 < W) : Good buf 0 m (rdExt W n m) := by
  rcases rd_total hm hW with h | ⟨d, h, h1, h2, h3⟩
  · simp only [rdExt, h, bind, Except.bind, pure, Except.pure]; exact good_none hm
  · have hm' : Inside buf (adv m n) := ⟨hm.1, h3⟩
    rcases rd_total hm' hW1 with g | ⟨t, g, g1, g2, g3⟩
    · simp only [rdExt, h, g, bind, Except.bind, pure, Except.pure]
      exact ⟨_, _, rfl, hm', by simp [adv], fun o' e => by cases e⟩
    · simp only [rdExt, h, g, bind, Except.bind, pure, Except.pure]
      refine ⟨_, _, rfl, ⟨hm.1, g3⟩, by simp [adv]; omega, fun o' e => ?_⟩
      injection e with e; subst e
      exact ⟨trivial, by simp [adv]; omega⟩

theorem good_ite {buf : List Nat} {k : Nat} {m : Mem} {c : Prop} [Decidable c] {a b : Except Param.Err (Option Obj × Mem)}
    (ha : Good buf k m a) (hb : Good buf k m b) : Good buf k m (if c then a else b) := by
  by_cases h : c
  · rw [if_pos h]; exact ha
  · rw [if_neg h]; exact hb

theorem and_small (t : Nat) {k : Nat} (hk : k < 256) : t &&& k < 2 ^ 32 := by
  have := Nat.and_le_right (n := t) (m := k)
  omega

theorem readObject_total {W : Nat} {buf : List Nat} {m : Mem} (hb : ∀ x ∈ buf, x < 256) (hm : Inside buf m) (hW : buf.length + 8 < W) :
    Good buf 1 m (readObject W m) := by
  rcases rd_total (W := W) (n := 1) hm (by omega) with h | ⟨d, h, h1, h2, h3⟩
  · simp only [readObject, h, bind, Except.bind, pure, Except.pure]
    exact ⟨_, _, rfl, hm, Nat.le_refl _, fun o' e => by cases e⟩
  · have hm' : Inside buf (adv m 1) := ⟨hm.1, h3⟩
    have key : Good buf 0 (adv m 1) (readObject W m) := by
      simp only [readObject, h, bind, Except.bind, pure, Except.pure]
      have num : ∀ (n : Nat) (mk : Nat → Obj), n ≤ 8 → (∀ v, v < 256 ^ n → Small (mk v)) → Good buf 0 (adv m 1) (rdNum W n mk (adv m 1)) :=
        fun n mk hn hk => good_num hb hm' (by omega) hk
      have tr : ∀ (n : Nat) (mk : Nat → Obj), n ≤ 8 → (∀ v, Small (mk v)) → Good buf 0 (adv m 1) (rdNum W n mk (adv m 1)) :=
        fun n mk hn hk => num n mk hn (fun v _ => hk v)
      have ext : ∀ n : Nat, n ≤ 8 → Good buf 0 (adv m 1) (rdExt W n (adv m 1)) := fun n hn => good_ext hm' (by omega) (by omega)
      refine good_ite (good_pure hm' (by simp only [Small])) ?_
      refine good_ite (good_pure hm' (and_small _ (by decide))) ?_
      refine good_ite (good_pure hm' (and_small _ (by decide))) ?_
      refine good_ite (good_pure hm' (and_small _ (by decide))) ?_
      refine good_ite (good_pure hm' (by simp only [Small])) ?_
      refine good_ite (good_pure hm' (by simp only [Small])) ?_
      refine good_ite (good_pure hm' (by simp only [Small])) ?_
      refine good_ite (tr _ _ (by decide) fun _ => by simp only [Small]) ?_
      refine good_ite (tr _ _ (by decide) fun _ => by simp only [Small]) ?_
      refine good_ite (tr _ _ (by decide) fun _ => by simp only [Small]) ?_
      refine good_ite (ext _ (by decide)) ?_
      refine good_ite (ext _ (by decide)) ?_
      refine good_ite (ext _ (by decide)) ?_
      refine good_ite (tr _ _ (by decide) fun _ => by simp only [Small]) ?_
      refine good_ite (tr _ _ (by decide) fun _ => by simp only [Small]) ?_
      refine good_ite (tr _ _ (by decide) fun _ => by simp only [Small]) ?_
      refine good_ite (tr _ _ (by decide) fun _ => by simp only [Small]) ?_
      refine good_ite (tr _ _ (by decide) fun _ => by simp only [Small]) ?_
      refine good_ite (tr _ _ (by decide) fun _ => by simp only [Small]) ?_
      refine good_ite (tr _ _ (by decide) fun _ => by simp only [Small]) ?_
      refine good_ite (tr _ _ (by decide) fun _ => by simp only [Small]) ?_
      refine good_ite (tr _ _ (by decide) fun _ => by simp only [Small]) ?_
      refine good_ite (tr _ _ (by decide) fun _ => by simp only [Small]) ?_
      refine good_ite (tr _ _ (by decide) fun _ => by simp only [Small]) ?_
      refine good_ite (tr _ _ (by decide) fun _ => by simp only [Small]) ?_
      refine good_ite (tr _ _ (by decide) fun _ => by simp only [Small]) ?_
      refine good_ite (tr _ _ (by decide) fun _ => by simp only [Small]) ?_
      refine good_ite (tr _ _ (by decide) fun _ => by simp only [Small]) ?_
      refine good_ite (num _ _ (by decide) fun v hv => by simp only [Small]; omega) ?_
      refine good_ite (num _ _ (by decide) fun v hv => by simp only [Small]; omega) ?_
      refine good_ite (num _ _ (by decide) fun v hv => by simp only [Small]; omega) ?_
      refine good_ite (num _ _ (by decide) fun v hv => by simp only [Small]; omega) ?_
      refine good_ite (num _ _ (by decide) fun v hv => by simp only [Small]; omega) ?_
      refine good_ite (num _ _ (by decide) fun v hv => by simp only [Small]; omega) ?_
      refine good_ite (num _ _ (by decide) fun v hv => by simp only [Small]; omega) ?_
      exact good_ite (good_pure hm' (by simp only [Small])) (good_none hm')
    obtain ⟨r, m', e, i1, i2, i3⟩ := key
    simp only [adv] at i2 i3
    exact ⟨r, m', e, i1, by omega, fun o ho => ⟨(i3 o ho).1, by have := (i3 o ho).2; omega⟩⟩

theorem getVector_total {W : Nat} {en : Env} {buf : List Nat} (hb : ∀ x ∈ buf, x < 256) (hW : buf.length + 8 < W) :
    ∀ (k : Nat) (err : Bool) (acc : List W32) (s : RS), Inside buf s.mem →
    ∃ r s', getVector W en k err acc s = .ok (r, s') ∧ Inside buf s'.mem ∧ s.mem.index ≤ s'.mem.index ∧ s'.heap = s.heap ∧
      ∀ v, r = some v → v.length = acc.length + k
  | 0, err, acc, s, hm => by
    refine ⟨_, s, rfl, hm, Nat.le_refl _, rfl, fun v h => ?_⟩
    cases err
    · simp at h; subst h; rfl
    · cases h
  | k + 1, err, acc, s, hm => by
    obtain ⟨r, m', e, i1, i2, i3⟩ := readObject_total hb hm hW
    cases r with
    | none =>
      simp only [getVector, e, bind, Except.bind]
      exact ⟨_, _, rfl, i1, i2, rfl, fun v h => by cases h⟩
    | some o =>
      simp only [getVector, e, bind, Except.bind]
      cases hg : (if err = true then none else getFloat en o) with
      | some x =>
        simp only
        obtain ⟨r, s', e', j1, j2, j3, j4⟩ := getVector_total (en := en) hb hW k err (acc ++ [x]) { s with mem := m' } i1
        refine ⟨r, s', e', j1, by simp only at j2; omega, j3, fun v h => ?_⟩
        rw [j4 v h]; simp; omega
      | none =>
        simp only
        have hs : ∀ t : RS, (discard o t).2.mem = t.mem ∧ (discard o t).2.heap = t.heap := by
          intro t; cases o <;> exact ⟨rfl, rfl⟩
        generalize ht : (if err = true then ({ s with mem := m' } : RS) else RS.err { s with mem := m' }) = t
        have ht1 : t.mem = m' ∧ t.heap = s.heap := by rw [← ht]; cases err <;> exact ⟨rfl, rfl⟩
        obtain ⟨q1, q2⟩ := hs t
        generalize discard o t = q at q1 q2
        obtain ⟨ok, t'⟩ := q
        simp only at q1 q2 ⊢
        have hm' : t'.mem = m' := by rw [q1, ht1.1]
        have hh' : t'.heap = s.heap := by rw [q2, ht1.2]
        cases ok with
        | false =>
          simp only [Bool.false_eq_true, if_false]
          exact ⟨_, _, rfl, by rw [hm']; exact i1, by rw [hm']; exact i2, hh', fun v h => by cases h⟩
        | true =>
          simp only [if_true]
          obtain ⟨r, s', e', j1, j2, j3, j4⟩ := getVector_total (en := en) hb hW k true acc t' (by rw [hm']; exact i1)
          rw [hm'] at j2
          refine ⟨r, s', e', j1, by omega, by rw [j3, hh'], fun v h => ?_⟩
          have hnone : ∀ (k : Nat) (acc : List W32) (s : RS) (v : List W32) (s' : RS), getVector W en k true acc s ≠ .ok (some v, s') := by
            intro k
            induction k with
            | zero => intro acc s v s' h; simp [getVector, pure, Except.pure] at h
            | succ k ih =>
              intro acc s v s' h
              simp only [getVector, if_true, bind, Except.bind] at h
              cases hr : readObject W s.mem with
              | error => rw [hr] at h; cases h
              | ok x =>
                obtain ⟨r, m⟩ := x
                rw [hr] at h
                cases r with
                | none => simp [pure, Except.pure] at h
                | some o =>
                  simp only at h
                  cases (discard o { s with mem := m }).1
                  · simp [pure, Except.pure] at h
                    split at h
                    · exact ih _ _ _ _ h
                    · cases h
                  · split at h
                    · exact ih _ _ _ _ h
                    · simp [pure, Except.pure] at h
          rw [h] at e'
          exact absurd e' (hnone _ _ _ _ _)

theorem discard_mem (o : Obj) (t : RS) : (discard o t).2.mem = t.mem ∧ (discard o t).2.heap = t.heap := by
  cases o <;> exact ⟨rfl, rfl⟩

/-- What loading one parameter may do: nothing, or setting it to a fitting value. -/
def Touched (buf : List Nat) (lh : List Op) (p : Nat) (s : RS) (x : Except Param.Err (Bool × RS)) : Prop :=
  ∃ b s' S, x = .ok (b, s') ∧ Inside buf s'.mem ∧ s.mem.index ≤ s'.mem.index ∧ (S = [] ∨ ∃ v, S = [.set p v]) ∧ Proper (S ++ lh) ∧
    Inv (S ++ lh) s'.heap

theorem touched_none {buf : List Nat} {lh : List Op} {p : Nat} {s s' : RS} {b : Bool} (hm : Inside buf s'.mem)
    (h : s.mem.index ≤ s'.mem.index) (hh : s'.heap = s.heap) (hi : Inv lh s.heap) (hp : Proper lh) :
    Touched buf lh p s (.ok (b, s')) :=
  ⟨b, s', [], rfl, hm, h, Or.inl rfl, hp, by rw [hh]; exact hi⟩

theorem touched_mismatch {buf : List Nat} {lh : List Op} {p : Nat} {s : RS} {o : Obj} (hm : Inside buf s.mem)
    (hi : Inv lh s.heap) (hp : Proper lh) : Touched buf lh p s (.ok (mismatch o s)) := by
  obtain ⟨h1, h2⟩ := discard_mem o s.err
  unfold mismatch
  generalize discard o s.err = q at h1 h2
  obtain ⟨b, s'⟩ := q
  simp only at h1 h2
  exact touched_none (by rw [h1]; exact hm) (by rw [h1]; exact Nat.le_refl _) (by rw [h2]; rfl) hi hp

theorem touched_set {buf : List Nat} {fuel : Nat} {lh : List Op} {p : Nat} {s s' : RS} {v : AVal} {d : Decl} (hm : Inside buf s'.mem)
    (h : s.mem.index ≤ s'.mem.index) (hh : s'.heap = s.heap) (hi : Inv lh s.heap) (hp : Proper lh) (hf : lh.length ≤ fuel)
    (hd : declOf p lh = some d) (hv : Fits d v) {y : Except Param.Err Heap} (hy : y = Param.set fuel s.heap p v) :
    Touched buf lh p s (y.bind (fun h => .ok (true, { s' with heap := h }))) := by
  have hp' : Proper (.set p v :: lh) := ⟨⟨d, hd, hv⟩, hp⟩
  obtain ⟨h', hset, hinv⟩ := set_step_inv hi hp' hf
  rw [hy, hset]
  exact ⟨true, _, [.set p v], rfl, hm, h, Or.inr ⟨v, rfl⟩, hp', hinv⟩

theorem touched_vec {W : Nat} {en : Env} {buf : List Nat} {lh : List Op} {p : Nat} {s : RS} {o : Obj} {fits : Nat → Bool} {fuel : Nat}
    {st : Heap → List W32 → Except Param.Err Heap} {mk : List W32 → AVal} {d : Decl} (hb : ∀ x ∈ buf, x < 256) (hW : buf.length + 8 < W)
    (hm : Inside buf s.mem) (hi : Inv lh s.heap) (hp : Proper lh) (hf : lh.length ≤ fuel) (hd : declOf p lh = some d)
    (hfit : ∀ v : List W32, fits v.length = true → Fits d (mk v)) (hst : ∀ v, st s.heap v = Param.set fuel s.heap p (mk v)) :
    Touched buf lh p s (readVec W en fits st o s) := by
  cases o with
  | array k =>
    simp only [readVec]
    by_cases h1 : fits k = true
    · simp only [h1, if_true, Bool.not_true, Bool.false_eq_true, if_false]
      by_cases h2 : en.alloc (k * 4) = true
      · simp only [h2, if_true, Bool.not_true, Bool.false_eq_true, if_false]
        obtain ⟨r, s', e, i1, i2, i3, i4⟩ := getVector_total (en := en) hb hW k false [] s hm
        simp only [e, bind, Except.bind]
        cases r with
        | none => exact touched_none i1 i2 i3 hi hp
        | some v =>
          have hl := i4 v rfl
          simp only [List.length_nil, Nat.zero_add] at hl
          exact touched_set (s' := s') i1 i2 i3 hi hp hf hd (hfit v (by rw [hl]; exact h1)) (by rw [i3, hst])
      · simp only [Bool.not_eq_true] at h2
        simp only [h2, Bool.false_eq_true, if_false, discard, Bool.not_false, if_true]
        exact touched_none hm (Nat.le_refl _) rfl hi hp
    · simp only [Bool.not_eq_true] at h1
      simp only [h1, Bool.false_eq_true, if_false, discard, Bool.not_false, if_true]
      exact touched_none hm (Nat.le_refl _) rfl hi hp
  | _ => exact touched_mismatch hm hi hp

theorem readParam_total {W fuel : Nat} {en : Env} {buf : List Nat} {lh : List Op} {p : Nat} {s : RS} {o : Obj} {d : Decl}
    (hb : ∀ x ∈ buf, x < 256) (hW : buf.length + 65536 < W) (hm : Inside buf s.mem) (hi : Inv lh s.heap) (hp : Proper lh)
    (hf : lh.length ≤ fuel) (hd : declOf p lh = some d) (hs : ∀ b j k, d = .string b j k → b.length ≤ 65536) :
    Touched buf lh p s (readParam W fuel en p o s) := by
  have hval := hi.val p d hd
  cases d with
  | scalar j dv =>
    cases hx : s.heap.val p <;> rw [hx] at hval <;> simp only [valOK] at hval
    simp only [readParam, hx]
    cases hg : getFloat en o with
    | none => exact touched_mismatch hm hi hp
    | some v => exact touched_set (v := .scalar v) hm (Nat.le_refl _) rfl hi hp hf hd trivial rfl
  | integer j dv =>
    cases hx : s.heap.val p <;> rw [hx] at hval <;> simp only [valOK] at hval
    simp only [readParam, hx]
    cases hg : asInt o with
    | none => exact touched_mismatch hm hi hp
    | some v => exact touched_set (v := .integer v) hm (Nat.le_refl _) rfl hi hp hf hd trivial rfl
  | boolean j dv =>
    cases hx : s.heap.val p <;> rw [hx] at hval <;> simp only [valOK] at hval
    simp only [readParam, hx]
    cases o with
    | bool v => exact touched_set (v := .boolean v) hm (Nat.le_refl _) rfl hi hp hf hd trivial rfl
    | _ => exact touched_mismatch hm hi hp
  | vector b dim dv =>
    cases hx : s.heap.val p <;> rw [hx] at hval <;> simp only [valOK] at hval
    rename_i b' dim'
    simp only [readParam, hx]
    refine touched_vec (mk := .vector) hb (by omega) hm hi hp hf hd (fun v hv => ?_) (fun v => rfl)
    simp only [beq_iff_eq] at hv
    simp only [Fits]
    rw [hv, hval.1]
  | varVector b j dv =>
    cases hx : s.heap.val p <;> rw [hx] at hval <;> simp only [valOK] at hval
    simp only [readParam, hx]
    refine touched_vec (mk := .varVector) hb (by omega) hm hi hp hf hd (fun v hv => ?_) (fun v => rfl)
    simp only [Bool.not_eq_true', decide_eq_false_iff_not] at hv
    simp only [Fits]
    rw [hval.1] at hv
    omega
  | string b j dv =>
    cases hx : s.heap.val p <;> rw [hx] at hval <;> simp only [valOK] at hval
    rename_i b' len
    have hlen := hs b j dv rfl
    simp only [readParam, hx]
    cases o with
    | str k =>
      simp only
      by_cases h1 : k ≥ b'.length
      · rw [if_pos h1]; exact touched_mismatch hm hi hp
      · rw [if_neg h1]
        by_cases h2 : en.alloc k = true
        · have hk : k < b.length := by rw [← hval.1]; omega
          simp only [h2, Bool.not_true, Bool.false_eq_true, if_false]
          rcases rd_total (W := W) (n := k) hm (by omega) with h | ⟨v, h, g1, g2, g3⟩
          · simp only [h, bind, Except.bind]
            exact touched_none hm (Nat.le_refl _) rfl hi hp
          · simp only [h, bind, Except.bind]
            refine touched_set (s := s) (v := .string v) (s' := { s with mem := adv s.mem k }) ⟨hm.1, g3⟩ (by simp [adv]) rfl hi hp hf hd ?_ ?_
            · simp only [Fits]; omega
            · simp only [Param.set, stringSet]
              rw [g1, Nat.mod_eq_of_lt (by omega)]
        · simp only [Bool.not_eq_true] at h2
          simp only [h2, Bool.not_false, if_true]
          exact touched_mismatch hm hi hp
    | _ => exact touched_mismatch hm hi hp

/-! ## Lookups stay below the namespace -/

theorem under_trans {l : List Op} {a b c : Nat} (h1 : Under l a b) (h2 : Under l b c) : Under l a c := by
  induction h2 with
  | self => exact h1
  | child g1 g2 _ ih => exact .child g1 g2 ih

/-- A lookup of `q` finds nothing or something with `P`, or runs past the end of an identifier because of a zero. -/
def Found (P : Nat → Prop) (q : Str) (x : Except Param.Err (Option Nat)) : Prop :=
  (∃ r, x = .ok r ∧ ∀ i, r = some i → P i) ∨ (x = .error .outOfBounds ∧ 0 ∈ q)

theorem Found.mono {P Q : Nat → Prop} {q q' : Str} {x : Except Param.Err (Option Nat)} (h : Found P q x) (hP : ∀ i, P i → Q i)
    (hq : ∀ c ∈ q, c ∈ q') : Found Q q' x := by
  rcases h with ⟨r, e, h⟩ | ⟨e, h⟩
  · exact Or.inl ⟨r, e, fun i hi => hP i (h i hi)⟩
  · exact Or.inr ⟨e, hq 0 h⟩

theorem findLoop_total {next : Nat → Option Nat} {ident : Nat → Str} {q : Str} : ∀ {lst : List Nat} {fuel : Nat} {p : Option Nat},
    HeapList.IsList next p lst → lst.length ≤ fuel → Found (fun i => i ∈ lst) q (findLoop next ident q fuel p)
  | [], fuel, p, h, _ => by
    simp only [HeapList.IsList] at h; subst h
    refine Or.inl ⟨none, by cases fuel <;> rfl, fun i h => by cases h⟩
  | i :: lst, fuel, p, h, hf => by
    obtain ⟨rfl, h⟩ := h
    cases fuel with
    | zero => simp at hf
    | succ fuel =>
      have ih := findLoop_total (ident := ident) (q := q) h (fuel := fuel) (by simpa using hf)
      by_cases h0 : 0 ∈ q
      · simp only [findLoop, idMatch, bind, Except.bind]
        by_cases h1 : strncmpEq q (ident i) = true
        · rw [if_pos h1]
          by_cases h2 : q.length ≤ (ident i).length
          · rw [if_pos h2]
            simp only
            by_cases h3 : q.length = (ident i).length
            · simp only [h3, decide_true, if_true]
              exact Or.inl ⟨some i, rfl, fun j hj => by injection hj with hj; subst hj; exact List.mem_cons_self⟩
            · simp only [h3, decide_false, Bool.false_eq_true, if_false]
              exact ih.mono (fun j hj => List.mem_cons_of_mem _ hj) (fun c hc => hc)
          · rw [if_neg h2]
            exact Or.inr ⟨rfl, h0⟩
        · rw [if_neg h1]
          simp only [Bool.false_eq_true, if_false]
          exact ih.mono (fun j hj => List.mem_cons_of_mem _ hj) (fun c hc => hc)
      · simp only [findLoop, idMatch_spec h0, bind, Except.bind]
        by_cases h1 : ident i = q
        · simp only [h1, decide_true, if_true]
          exact Or.inl ⟨some i, rfl, fun j hj => by injection hj with hj; subst hj; exact List.mem_cons_self⟩
        · simp only [h1, decide_false, Bool.false_eq_true, if_false]
          exact ih.mono (fun j hj => List.mem_cons_of_mem _ hj) (fun c hc => hc)

theorem getSub_total {fuel : Nat} {l : List Op} {h : Heap} {n : Nat} {q : Str} (hp : Proper l) (ht : Tree l h) (hn : n ∈ nss l)
    (hf : l.length ≤ fuel) : Found (fun m => m ∈ nss l ∧ Under l n m) q (getSub fuel h n q) := by
  unfold getSub
  by_cases hq : q.length = 0
  · rw [if_pos hq]
    exact Or.inl ⟨some n, rfl, fun i hi => by injection hi with hi; subst hi; exact ⟨hn, .self⟩⟩
  · rw [if_neg hq]
    exact (findLoop_total (ht.subs n hn) (Nat.le_trans (subs_length n l) hf)).mono
      (fun m hm => ⟨subs_nss hm, under_sub hp hm .self⟩) (fun c hc => hc)

theorem getPar_total {fuel : Nat} {l : List Op} {h : Heap} {n : Nat} {q : Str} (hp : Proper l) (ht : Tree l h) (hn : n ∈ nss l)
    (hf : l.length ≤ fuel) : Found (fun p => p ∈ pars l ∧ Under l n (nsOf p l)) q (getPar fuel h n q) := by
  unfold getPar
  by_cases hq : q.length = 0
  · rw [if_pos hq]
    exact Or.inl ⟨none, rfl, fun i hi => by cases hi⟩
  · rw [if_neg hq]
    refine (findLoop_total (ht.plist n hn) (Nat.le_trans (parsIn_length n l) hf)).mono (fun m hm => ?_) (fun c hc => hc)
    obtain ⟨g1, g2⟩ := (mem_parsIn hp).mp hm
    exact ⟨g1, by rw [g2]; exact .self⟩

theorem nsFindLoop_total {fuel : Nat} {l : List Op} {h : Heap} (hp : Proper l) (ht : Tree l h) (hf : l.length ≤ fuel) :
    ∀ (f n : Nat) (s : Str), n ∈ nss l → s.length ≤ f →
    Found (fun m => m ∈ nss l ∧ Under l n m) s (nsFindLoop fuel h f (some n) s)
  | f, n, [], hn, _ => by
    refine Or.inl ⟨some n, by cases f <;> simp [nsFindLoop], fun i hi => by injection hi with hi; subst hi; exact ⟨hn, .self⟩⟩
  | 0, n, c :: s, _, hl => by simp at hl
  | f + 1, n, c :: s, hn, hl => by
    simp only [nsFindLoop]
    generalize hss : c :: s = ss at *
    have hlen : 0 < ss.length := by rw [← hss]; simp
    rcases getSub_total (q := ss.take (idSplit ss)) hp ht hn hf with ⟨r, e, g⟩ | ⟨e, g⟩
    · simp only [e, bind, Except.bind]
      cases r with
      | none => exact Or.inl ⟨none, by cases f <;> simp [nsFindLoop], fun i hi => by cases hi⟩
      | some m =>
        obtain ⟨g1, g2⟩ := g m rfl
        exact (nsFindLoop_total hp ht hf f m (ss.drop (idSplit ss + 1)) g1 (by simp only [List.length_drop]; omega)).mono
          (fun i hi => ⟨hi.1, under_trans g2 hi.2⟩) (fun c hc => List.mem_of_mem_drop hc)
    · simp only [e, bind, Except.bind]
      exact Or.inr ⟨rfl, List.mem_of_mem_take g⟩

theorem parFindLoop_total {fuel : Nat} {l : List Op} {h : Heap} (hp : Proper l) (ht : Tree l h) (hf : l.length ≤ fuel) :
    ∀ (f n : Nat) (s : Str), n ∈ nss l → s.length ≤ f →
    Found (fun p => p ∈ pars l ∧ Under l n (nsOf p l)) s (parFindLoop fuel h f (some n) s) := by
  intro f
  induction f with
  | zero =>
    intro n s hn hl
    have : s = [] := List.length_eq_zero_iff.mp (by omega)
    subst this
    exact Or.inl ⟨none, by simp [parFindLoop, idSplit, getPar], fun i hi => by cases hi⟩
  | succ f ih =>
    intro n s hn hl
    unfold parFindLoop
    by_cases hk : idSplit s < s.length
    · simp only [hk, if_true]
      rcases getSub_total (q := s.take (idSplit s)) hp ht hn hf with ⟨r, e, g⟩ | ⟨e, g⟩
      · simp only [e, bind, Except.bind]
        cases r with
        | none => exact Or.inl ⟨none, by cases f <;> simp [parFindLoop], fun i hi => by cases hi⟩
        | some m =>
          obtain ⟨g1, g2⟩ := g m rfl
          exact (ih m (s.drop (idSplit s + 1)) g1 (by simp only [List.length_drop]; omega)).mono
            (fun i hi => ⟨hi.1, under_trans g2 hi.2⟩) (fun c hc => List.mem_of_mem_drop hc)
      · simp only [e, bind, Except.bind]
        exact Or.inr ⟨rfl, List.mem_of_mem_take g⟩
    · simp only [hk, if_false]
      exact (getPar_total hp ht hn hf).mono (fun i hi => hi) (fun c hc => List.mem_of_mem_take hc)

/-! ## Reading a namespace -/

/-- Somewhere in the buffer there is a string, as `cmp_read_object` sees it, whose characters include a zero. -/
def NulKey (W : Nat) (buf : List Nat) : Prop :=
  ∃ m k m' id m'', m.buf = buf ∧ readObject W m = .ok (some (.str k), m') ∧ rd W k m' = .ok (some id, m'') ∧ 0 ∈ id

/-- Only parameters below `n` are set. -/
def Sets (l : List Op) (n : Nat) (S : List Op) : Prop :=
  ∀ op ∈ S, ∃ p v, op = .set p v ∧ p ∈ pars l ∧ Under l n (nsOf p l)

/-- Same declarations. -/
structure Keeps (l lh : List Op) : Prop where
  nss : nss lh = nss l
  pars : pars lh = pars l
  parentOf : ∀ n, parentOf n lh = parentOf n l
  nsOf : ∀ p, nsOf p lh = nsOf p l
  declOf : ∀ p, declOf p lh = declOf p l

theorem Keeps.sets {l lh : List Op} {n : Nat} (h : Keeps l lh) : ∀ {S : List Op}, Sets l n S → Keeps l (S ++ lh)
  | [], _ => h
  | op :: S, hS => by
    obtain ⟨p, v, rfl, _⟩ := hS op List.mem_cons_self
    have ih := Keeps.sets h (S := S) (fun op ho => hS op (List.mem_cons_of_mem _ ho))
    exact ⟨ih.nss, ih.pars, ih.parentOf, ih.nsOf, ih.declOf⟩

theorem Keeps.under {l lh : List Op} {n m : Nat} (h : Keeps l lh) (hu : Under lh n m) : Under l n m := by
  induction hu with
  | self => exact .self
  | child g1 g2 _ ih => exact .child (h.nss ▸ g1) (by rw [← h.parentOf]; exact g2) ih

theorem Sets.weaken {l : List Op} {n m : Nat} {S : List Op} (h : Under l n m) (hS : Sets l m S) : Sets l n S := fun op ho => by
  obtain ⟨p, v, e, g1, g2⟩ := hS op ho
  exact ⟨p, v, e, g1, under_trans h g2⟩

/-- Loading starts at byte `i` and gets at least to byte `j`. -/
def Outcome (W : Nat) (l : List Op) (n : Nat) (buf : List Nat) (lh : List Op) (i j : Nat) (x : Except Param.Err (Bool × RS)) : Prop :=
  (∃ b s' S, x = .ok (b, s') ∧ Inside buf s'.mem ∧ Sets l n S ∧ Proper (S ++ lh) ∧ Inv (S ++ lh) s'.heap ∧ j ≤ s'.mem.index ∧
    i + 2 * S.length ≤ s'.mem.index) ∨ (x = .error .outOfBounds ∧ NulKey W buf)

/-- Nothing was set. -/
theorem Outcome.none {W n i j : Nat} {l lh : List Op} {buf : List Nat} {b : Bool} {s' : RS} (hm : Inside buf s'.mem)
    (h : i ≤ s'.mem.index) (h' : j ≤ s'.mem.index) (hi : Inv lh s'.heap) (hp : Proper lh) :
    Outcome W l n buf lh i j (.ok (b, s')) :=
  Or.inl ⟨b, s', [], rfl, hm, (fun op ho => by cases ho), hp, hi, h', by simpa using h⟩

theorem readNs_total {W fuel : Nat} {en : Env} {buf : List Nat} {l : List Op} (hb : ∀ x ∈ buf, x < 256) (hW : buf.length + 65536 < W)
    (hL : buf.length < 2 ^ 32 - 1) (hA : ∀ k, k < 2 ^ 32 → en.alloc ((k + 1) % 2 ^ 32) = true → buf.length + k < W)
    (hs : ∀ p b j k, declOf p l = some (.string b j k) → b.length ≤ 65536) :
    ∀ (f n k : Nat) (lh : List Op) (s : RS), n ∈ nss l → Keeps l lh → Inv lh s.heap → Proper lh → Inside buf s.mem →
    buf.length - s.mem.index < f → lh.length + (buf.length - s.mem.index) ≤ fuel →
    Outcome W l n buf lh s.mem.index s.mem.index (readNs W fuel en f n k s)
  | f, n, 0, lh, s, _, _, hi, hp, hm, _, _ => by
    have : readNs W fuel en f n 0 s = .ok (true, s) := by cases f <;> rfl
    rw [this]
    exact Outcome.none hm (Nat.le_refl _) (Nat.le_refl _) hi hp
  | 0, n, k + 1, lh, s, _, _, _, _, _, hf, _ => by omega
  | f + 1, n, k + 1, lh, s, hn, he, hi, hp, hm, hf, hfuel => by
    obtain ⟨r, m1, e1, i1, i2, i3⟩ := readObject_total hb hm (show buf.length + 8 < W by omega)
    have stop : ∀ (b : Bool) (m : Mem) (x : Nat), Inside buf m → s.mem.index ≤ m.index →
        Outcome W l n buf lh s.mem.index s.mem.index (.ok (b, { mem := m, heap := s.heap, errs := x })) :=
      fun b m x h1 h2 => Outcome.none h1 h2 h2 hi hp
    cases r with
    | none =>
      simp only [readNs, e1, bind, Except.bind]
      exact stop _ _ _ i1 i2
    | some o1 =>
      obtain ⟨hsmall, hadv⟩ := i3 o1 rfl
      by_cases hstr : ∃ idSize, o1 = .str idSize
      case neg =>
        have : readNs W fuel en (f + 1) n (k + 1) s = .ok (false, { mem := m1, heap := s.heap, errs := s.errs + 1 }) := by
          simp only [readNs, e1, bind, Except.bind]
          cases o1 <;> first | rfl | exact absurd ⟨_, rfl⟩ hstr
        rw [this]
        exact stop _ _ _ i1 i2
      obtain ⟨idSize, rfl⟩ := hstr
      simp only [readNs, e1, bind, Except.bind]
      by_cases hal : en.alloc ((idSize + 1) % 2 ^ 32) = true
      case neg =>
        simp only [Bool.not_eq_true] at hal
        simp only [hal, Bool.not_false, if_true]
        exact stop _ _ _ i1 i2
      simp only [hal, Bool.not_true, Bool.false_eq_true, if_false]
      have hk : idSize < 2 ^ 32 := hsmall
      rcases rd_total (W := W) (n := idSize) i1 (hA _ hk hal) with h | ⟨id, h, g1, g2, g3⟩
      · simp only [h]
        exact stop _ _ _ i1 i2
      simp only [h]
      have hnw : (idSize + 1) % 2 ^ 32 = idSize + 1 := Nat.mod_eq_of_lt (by omega)
      rw [hnw, if_neg (Nat.lt_irrefl _)]
      have hm2 : Inside buf (adv m1 idSize) := ⟨i1.1, g3⟩
      obtain ⟨r2, m3, e3, j1, j2, j3⟩ := readObject_total hb hm2 (show buf.length + 8 < W by omega)
      have hle : m1.index ≤ m3.index := by simp only [adv] at j2; omega
      cases r2 with
      | none =>
        simp only [e3]
        exact stop _ _ _ j1 (Nat.le_trans i2 hle)
      | some o =>
        obtain ⟨osmall, oadv⟩ := j3 o rfl
        have h2 : s.mem.index + 2 ≤ m3.index := by simp only [adv] at oadv; omega
        simp only [e3]
        have hnul : 0 ∈ id → NulKey W buf := fun h0 => ⟨s.mem, idSize, m1, id, adv m1 idSize, hm.1, e1, h, h0⟩
        have hlf : lh.length ≤ fuel := by omega
        have hn' : n ∈ nss lh := by rw [he.nss]; exact hn
        -- whatever the entry does, the rounds that follow continue from there
        have next : ∀ x, Outcome W l n buf lh s.mem.index m3.index x → Outcome W l n buf lh s.mem.index s.mem.index
            (Except.bind x (fun v => if v.1 = true then readNs W fuel en f n k v.2 else pure (false, v.2))) := by
          rintro x (⟨b, s', S, rfl, a1, a2, a3, a4, a6, a5⟩ | ⟨rfl, a1⟩)
          · have hke := he.sets a2
            simp only [Except.bind]
            cases b with
            | false =>
              simp only [Bool.false_eq_true, if_false]
              exact Or.inl ⟨false, s', S, rfl, a1, a2, a3, a4, by omega, a5⟩
            | true =>
              simp only [if_true]
              rcases readNs_total (fuel := fuel) (en := en) hb hW hL hA hs f n k (S ++ lh) s' hn hke a4 a3 a1 (by omega) (by
                have := a1.2
                rw [List.length_append]; omega) with ⟨b, s2, S2, c1, c2, c3, c4, c5, c7, c6⟩ | ⟨c1, c2⟩
              · refine Or.inl ⟨b, s2, S2 ++ S, c1, c2, ?_, by rw [List.append_assoc]; exact c4, by rw [List.append_assoc]; exact c5, by omega, ?_⟩
                · intro op ho
                  rcases List.mem_append.mp ho with ho | ho
                  · exact c3 op ho
                  · exact a2 op ho
                · rw [List.length_append]; omega
              · exact Or.inr ⟨c1, c2⟩
          · exact Or.inr ⟨rfl, a1⟩
        have quiet : ∀ o : Obj, Outcome W l n buf lh s.mem.index m3.index
            (.ok (discard o (RS.err { mem := m3, heap := s.heap, errs := s.errs }))) := by
          intro o
          obtain ⟨d1, d2⟩ := discard_mem o (RS.err { mem := m3, heap := s.heap, errs := s.errs })
          generalize discard o (RS.err { mem := m3, heap := s.heap, errs := s.errs }) = q at d1 d2
          obtain ⟨b, s'⟩ := q
          simp only [RS.err] at d1 d2
          exact Outcome.none (by rw [d1]; exact j1) (by rw [d1]; exact Nat.le_trans i2 hle) (by rw [d1]; exact Nat.le_refl _) (by rw [d2]; exact hi) hp
        have par : Outcome W l n buf lh s.mem.index m3.index
            (match parFindLoop fuel s.heap id.length (some n) id with
              | .error e => .error e
              | .ok r =>
                match r with
                | some p => readParam W fuel en p o { mem := m3, heap := s.heap, errs := s.errs }
                | none => pure (discard o (RS.err { mem := m3, heap := s.heap, errs := s.errs }))) := by
          rcases parFindLoop_total hp hi.tree hlf id.length n id hn' (Nat.le_refl _) with ⟨r, e, g⟩ | ⟨e, g⟩
          · simp only [e]
            cases r with
            | none => exact quiet o
            | some p =>
              obtain ⟨p1, p2⟩ := g p rfl
              obtain ⟨d, hd⟩ := pars_declOf p1
              obtain ⟨b, s', S, x, y1, y2, y3, y4, y5⟩ := readParam_total (W := W) (en := en) (o := o)
                (s := { mem := m3, heap := s.heap, errs := s.errs }) hb hW j1 hi hp hlf hd
                (fun b j k e => hs p b j k (by rw [← he.declOf, hd, e]))
              simp only at y2 ⊢
              refine Or.inl ⟨b, s', S, x, y1, ?_, y4, y5, y2, ?_⟩
              · rcases y3 with rfl | ⟨v, rfl⟩
                · intro op ho; cases ho
                · intro op ho
                  rw [List.mem_singleton.mp ho]
                  exact ⟨p, v, rfl, by rw [← he.pars]; exact p1, by rw [← he.nsOf]; exact he.under p2⟩
              · rcases y3 with rfl | ⟨v, rfl⟩
                · simp only [List.length_nil]; omega
                · simp only [List.length_cons, List.length_nil]; omega
          · simp only [e]
            exact Or.inr ⟨rfl, hnul g⟩
        have ns : ∀ inner, Outcome W l n buf lh s.mem.index m3.index
            (match nsFindLoop fuel s.heap id.length (some n) id with
              | .error e => .error e
              | .ok r =>
                match r with
                | some sub => readNs W fuel en f sub inner { mem := m3, heap := s.heap, errs := s.errs }
                | none => pure (discard o (RS.err { mem := m3, heap := s.heap, errs := s.errs }))) := by
          intro inner
          rcases nsFindLoop_total hp hi.tree hlf id.length n id hn' (Nat.le_refl _) with ⟨r, e, g⟩ | ⟨e, g⟩
          · simp only [e]
            cases r with
            | none => exact quiet o
            | some sub =>
              obtain ⟨p1, p2⟩ := g sub rfl
              rcases readNs_total (fuel := fuel) (en := en) (s := { mem := m3, heap := s.heap, errs := s.errs }) hb hW hL hA hs f sub inner lh
                (by rw [← he.nss]; exact p1) he hi hp j1 (by have := j1.2; simp only; omega) (by simp only; omega) with
                ⟨b, s2, S2, c1, c2, c3, c4, c5, c7, c6⟩ | ⟨c1, c2⟩
              · simp only at c6 c7
                exact Or.inl ⟨b, s2, S2, c1, c2, c3.weaken (he.under p2), c4, c5, c7, by omega⟩
              · exact Or.inr ⟨c1, c2⟩
          · simp only [e]
            exact Or.inr ⟨rfl, hnul g⟩
        cases o with
        | map inner =>
          have hx := ns inner
          simp only
          revert hx
          generalize nsFindLoop fuel s.heap id.length (some n) id = y
          cases y with
          | error e => exact fun h => next (.error e) h
          | ok r =>
            cases r with
            | none => exact fun h => next (.ok _) h
            | some sub => intro h; simp only at h ⊢; exact next (readNs W fuel en f sub inner { mem := m3, heap := s.heap, errs := s.errs }) h
        | _ =>
          simp only
          revert par
          generalize parFindLoop fuel s.heap id.length (some n) id = y
          cases y with
          | error e => exact fun h => next (.error e) h
          | ok r =>
            cases r with
            | none => exact fun h => next (.ok _) h
            | some p => intro h; simp only at h ⊢; exact next (readParam W fuel en p _ { mem := m3, heap := s.heap, errs := s.errs }) h

/-! ## A load that fails reports an error -/

variable {W fuel : Nat} {en : Env}

theorem discard_errs (o : Obj) (t : RS) : t.errs ≤ (discard o t).2.errs ∧ ((discard o t).1 = false → t.errs < (discard o t).2.errs) := by
  cases o <;> simp [discard, RS.err]

theorem getVector_errs : ∀ (k : Nat) (err : Bool) (acc : List W32) (s : RS) (r : Option (List W32)) (s' : RS),
    getVector W en k err acc s = .ok (r, s') → s.errs ≤ s'.errs ∧ (r = none → err = false → s.errs < s'.errs)
  | 0, err, acc, s, r, s', h => by
    simp only [getVector, pure, Except.pure, Except.ok.injEq, Prod.mk.injEq] at h
    obtain ⟨rfl, rfl⟩ := h
    refine ⟨Nat.le_refl _, fun h he => ?_⟩
    rw [he] at h; cases h
  | k + 1, err, acc, s, r, s', h => by
    simp only [getVector, bind, Except.bind] at h
    cases hr : readObject W s.mem with
    | error => rw [hr] at h; cases h
    | ok x =>
      obtain ⟨o, m⟩ := x
      rw [hr] at h
      cases o with
      | none =>
        simp only [pure, Except.pure, Except.ok.injEq, Prod.mk.injEq] at h
        obtain ⟨rfl, rfl⟩ := h
        simp [RS.err]
      | some o =>
        simp only at h
        cases hg : (if err = true then none else getFloat en o) with
        | some v =>
          rw [hg] at h
          exact getVector_errs k err _ { s with mem := m } r s' h
        | none =>
          rw [hg] at h
          simp only at h
          have ht : s.errs ≤ (if err = true then ({ s with mem := m } : RS) else RS.err { s with mem := m }).errs ∧
              (err = false → s.errs < (if err = true then ({ s with mem := m } : RS) else RS.err { s with mem := m }).errs) := by
            cases err <;> simp [RS.err]
          generalize (if err = true then ({ s with mem := m } : RS) else RS.err { s with mem := m }) = t at h ht
          obtain ⟨d1, d2⟩ := discard_errs o t
          generalize discard o t = q at h d1 d2
          obtain ⟨ok, t'⟩ := q
          simp only at h d1 d2
          cases ok with
          | false =>
            simp only [Bool.false_eq_true, if_false, pure, Except.pure, Except.ok.injEq, Prod.mk.injEq] at h
            obtain ⟨rfl, rfl⟩ := h
            have := d2 rfl
            exact ⟨by omega, fun _ _ => by omega⟩
          | true =>
            simp only [if_true] at h
            have := (getVector_errs k true acc t' r s' h).1
            exact ⟨by omega, fun _ he => by have := ht.2 he; omega⟩

/-- Errors are not taken back; a failure adds one. -/
def Reports (s : RS) (x : Except Param.Err (Bool × RS)) : Prop :=
  ∀ b s', x = .ok (b, s') → s.errs ≤ s'.errs ∧ (b = false → s.errs < s'.errs)

theorem reports_set {s s' : RS} (hs : s.errs ≤ s'.errs) (y : Except Param.Err Heap) :
    Reports s (y.bind (fun h => .ok (true, { s' with heap := h }))) := by
  intro b t h
  cases y with
  | error => cases h
  | ok y =>
    simp only [Except.bind, Except.ok.injEq, Prod.mk.injEq] at h
    obtain ⟨rfl, rfl⟩ := h
    exact ⟨hs, fun h => by cases h⟩

theorem reports_mismatch (s : RS) (o : Obj) : Reports s (.ok (mismatch o s)) := by
  intro b t h
  obtain ⟨d1, d2⟩ := discard_errs o s.err
  simp only [mismatch, Except.ok.injEq] at h
  rw [h] at d1 d2
  simp only [RS.err] at d1
  exact ⟨by omega, fun _ => by omega⟩

theorem reports_vec (s : RS) (o : Obj) (fits : Nat → Bool) (st : Heap → List W32 → Except Param.Err Heap) :
    Reports s (readVec W en fits st o s) := by
  cases o with
  | array k =>
    simp only [readVec]
    by_cases h1 : fits k = true
    · simp only [h1, if_true, Bool.not_true, Bool.false_eq_true, if_false]
      by_cases h2 : en.alloc (k * 4) = true
      · simp only [h2, if_true, Bool.not_true, Bool.false_eq_true, if_false]
        intro b t h
        cases hg : getVector W en k false [] s with
        | error => simp only [hg, bind, Except.bind] at h; cases h
        | ok x =>
          obtain ⟨r, s'⟩ := x
          obtain ⟨g1, g2⟩ := getVector_errs k false [] s r s' hg
          cases r with
          | none =>
            simp only [hg, bind, Except.bind, pure, Except.pure, Except.ok.injEq, Prod.mk.injEq] at h
            obtain ⟨rfl, rfl⟩ := h
            exact ⟨g1, fun _ => g2 rfl rfl⟩
          | some v =>
            simp only [hg, bind] at h
            exact reports_set (s := s) (s' := s') g1 (st s'.heap v) b t h
      · simp only [Bool.not_eq_true] at h2
        simp only [h2, Bool.false_eq_true, if_false]
        intro b t h
        simp only [discard, Bool.not_false, if_true, pure, Except.pure, Except.ok.injEq, Prod.mk.injEq] at h
        obtain ⟨rfl, rfl⟩ := h
        simp only [RS.err]
        exact ⟨by omega, fun _ => by omega⟩
    · simp only [Bool.not_eq_true] at h1
      simp only [h1, Bool.false_eq_true, if_false]
      intro b t h
      simp only [discard, Bool.not_false, if_true, pure, Except.pure, Except.ok.injEq, Prod.mk.injEq] at h
      obtain ⟨rfl, rfl⟩ := h
      simp only [RS.err]
      exact ⟨by omega, fun _ => by omega⟩
  | _ => exact reports_mismatch s _

theorem reports_param (s : RS) (p : Nat) (o : Obj) : Reports s (readParam W fuel en p o s) := by
  unfold readParam
  cases hx : s.heap.val p with
  | scalar x =>
    simp only
    cases getFloat en o with
    | none => exact reports_mismatch s o
    | some v => exact reports_set (Nat.le_refl _) _
  | integer x =>
    simp only
    cases asInt o with
    | none => exact reports_mismatch s o
    | some v => exact reports_set (Nat.le_refl _) _
  | boolean x =>
    simp only
    cases o with
    | bool b => exact reports_set (Nat.le_refl _) _
    | _ => exact reports_mismatch s _
  | vector b d => exact reports_vec s o _ _
  | varVector b d => exact reports_vec s o _ _
  | string buf len =>
    simp only
    cases o with
    | str k =>
      simp only
      by_cases h1 : k ≥ buf.length
      · rw [if_pos h1]; exact reports_mismatch s _
      · rw [if_neg h1]
        by_cases h2 : en.alloc k = true
        · simp only [h2, Bool.not_true, Bool.false_eq_true, if_false]
          cases hr : rd W k s.mem with
          | error => intro b t h; simp only [bind, Except.bind] at h; cases h
          | ok x =>
            obtain ⟨d, m⟩ := x
            cases d with
            | none =>
              intro b t h
              simp only [bind, Except.bind, pure, Except.pure, Except.ok.injEq, Prod.mk.injEq] at h
              obtain ⟨rfl, rfl⟩ := h
              simp only [RS.err]
              exact ⟨by omega, fun _ => by omega⟩
            | some d => exact reports_set (s := s) (s' := { s with mem := m }) (Nat.le_refl _) (stringSetWLen fuel s.heap p d k)
        · simp only [Bool.not_eq_true] at h2
          simp only [h2, Bool.not_false, if_true]
          exact reports_mismatch s _
    | _ => exact reports_mismatch s _

theorem reports_mono {s t : RS} (h : s.errs ≤ t.errs) {x : Except Param.Err (Bool × RS)} (hx : Reports t x) : Reports s x := by
  intro b s' e
  obtain ⟨g1, g2⟩ := hx b s' e
  exact ⟨by omega, fun hb => by have := g2 hb; omega⟩

theorem reports_err {s : RS} {m : Mem} {b : Bool} : Reports s (.ok (b, RS.err { s with mem := m })) := by
  intro b t h
  simp only [Except.ok.injEq, Prod.mk.injEq] at h
  obtain ⟨rfl, rfl⟩ := h
  simp only [RS.err]
  exact ⟨by omega, fun _ => by omega⟩

theorem reports_bind {s : RS} {x : Except Param.Err (Bool × RS)} {g : RS → Except Param.Err (Bool × RS)} (hx : Reports s x)
    (hg : ∀ t, Reports t (g t)) : Reports s (x.bind (fun v => if v.1 = true then g v.2 else .ok (false, v.2))) := by
  cases x with
  | error => intro b t h; cases h
  | ok v =>
    obtain ⟨b, t⟩ := v
    obtain ⟨h1, h2⟩ := hx b t rfl
    cases b with
    | true => exact reports_mono h1 (hg t)
    | false =>
      intro b s' h
      simp only [Except.bind, Bool.false_eq_true, if_false, Except.ok.injEq, Prod.mk.injEq] at h
      obtain ⟨rfl, rfl⟩ := h
      exact ⟨h1, fun _ => h2 rfl⟩

theorem reports_ns : ∀ (f n k : Nat) (s : RS), Reports s (readNs W fuel en f n k s)
  | f, n, 0, s => by
    have : readNs W fuel en f n 0 s = .ok (true, s) := by cases f <;> rfl
    rw [this]
    intro b t h
    simp only [Except.ok.injEq, Prod.mk.injEq] at h
    obtain ⟨rfl, rfl⟩ := h
    exact ⟨Nat.le_refl _, fun h => by cases h⟩
  | 0, n, k + 1, s => by intro b t h; cases h
  | f + 1, n, k + 1, s => by
    cases e1 : readObject W s.mem with
    | error => intro b t h; simp only [readNs, e1, bind, Except.bind] at h; cases h
    | ok x =>
    obtain ⟨r, m1⟩ := x
    by_cases hstr : ∃ idSize, r = some (.str idSize)
    case neg =>
      have : readNs W fuel en (f + 1) n (k + 1) s = .ok (false, RS.err { s with mem := m1 }) := by
        simp only [readNs, e1, bind, Except.bind]
        cases r with
        | none => rfl
        | some o => cases o <;> first | rfl | exact absurd ⟨_, rfl⟩ hstr
      rw [this]
      exact reports_err
    obtain ⟨idSize, rfl⟩ := hstr
    simp only [readNs, e1, bind, Except.bind]
    by_cases hal : en.alloc ((idSize + 1) % 2 ^ 32) = true
    case neg =>
      simp only [Bool.not_eq_true] at hal
      simp only [hal, Bool.not_false, if_true]
      exact reports_err
    simp only [hal, Bool.not_true, Bool.false_eq_true, if_false]
    cases e2 : rd W idSize m1 with
    | error => intro b t h; cases h
    | ok x =>
    obtain ⟨d, m2⟩ := x
    cases d with
    | none => exact reports_err
    | some id =>
    simp only
    by_cases hw : (idSize + 1) % 2 ^ 32 < idSize + 1
    · rw [if_pos hw]; intro b t h; cases h
    rw [if_neg hw]
    cases e3 : readObject W m2 with
    | error => intro b t h; cases h
    | ok x =>
    obtain ⟨o, m3⟩ := x
    cases o with
    | none => exact reports_err
    | some o =>
    have quiet : ∀ o : Obj, Reports s (.ok (discard o (RS.err { s with mem := m3 }))) := fun o =>
      reports_mono (Nat.le_refl _) (reports_mismatch { s with mem := m3 } o)
    have next : ∀ x, Reports s x → Reports s
        (Except.bind x (fun v => if v.1 = true then readNs W fuel en f n k v.2 else pure (false, v.2))) :=
      fun x hx => reports_bind hx (fun t => reports_ns f n k t)
    have hq := quiet o
    cases o with
    | map inner =>
      simp only
      generalize nsFindLoop fuel s.heap id.length (some n) id = y
      cases y with
      | error e => intro b t h; cases h
      | ok r =>
        cases r with
        | none => exact next (.ok _) hq
        | some sub =>
          simp only
          exact next (readNs W fuel en f sub inner { s with mem := m3 }) (reports_mono (Nat.le_refl _) (reports_ns f sub inner { s with mem := m3 }))
    | _ =>
      simp only
      generalize parFindLoop fuel s.heap id.length (some n) id = y
      cases y with
      | error e => intro b t h; cases h
      | ok r =>
        cases r with
        | none => exact next (.ok _) hq
        | some p =>
          simp only
          exact next (readParam W fuel en p _ { s with mem := m3 }) (reports_mono (Nat.le_refl _) (reports_param { s with mem := m3 } p _))

end Verif.Msgpack
