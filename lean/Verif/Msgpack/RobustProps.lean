import Verif.Msgpack.Robust
import Verif.Msgpack.Props

/-!
# Loading arbitrary bytes (C91)

The document comes from an SD card, from flash or over the network: nothing is assumed about it.
-/

namespace Verif.Msgpack

open Verif.Param
open Verif.CmpMem (Mem)

/-- The history `l'` is `l` followed by settings of parameters in or below the namespace `n`, to values which have the type
of the parameter and fit its buffer. -/
def Updates (l : List Op) (n : Nat) (l' : List Op) : Prop :=
  ∃ S, l' = S ++ l ∧ (∀ op ∈ S, ∃ p v d, op = .set p v ∧ declOf p l = some d ∧ Fits d v ∧ Under l n (nsOf p l))

theorem updates_of {l : List Op} {n : Nat} : ∀ {S : List Op}, Sets l n S → Proper (S ++ l) →
    ∀ op ∈ S, ∃ p v d, op = .set p v ∧ declOf p l = some d ∧ Fits d v ∧ Under l n (nsOf p l)
  | [], _, _ => fun op h => by cases h
  | x :: S, hS, hp => by
    intro op ho
    rcases List.mem_cons.mp ho with rfl | ho
    · obtain ⟨p, v, rfl, _, g2⟩ := hS op List.mem_cons_self
      obtain ⟨⟨d, hd, hf⟩, _⟩ := hp
      have hk := Keeps.sets (l := l) (lh := l) ⟨rfl, rfl, fun _ => rfl, fun _ => rfl, fun _ => rfl⟩
        (S := S) (fun op ho => hS op (List.mem_cons_of_mem _ ho))
      exact ⟨p, v, d, rfl, by rw [← hk.declOf]; exact hd, hf, g2⟩
    · exact updates_of (fun op ho => hS op (List.mem_cons_of_mem _ ho)) (Proper.tail hp) op ho

variable {W fuel : Nat} {en : Env} {h0 h : Heap} {l : List Op} {n : Nat} {buf : List Nat}

/-- Loading any bytes into a namespace ends, within the buffer, and does no more than setting parameters of that namespace to
values they can hold – unless a name in the document contains a zero, in which case the comparison of names can run past the
end of a name of the tree.

`hA` says that an allocation which succeeds is not so large that a position in the buffer plus its size overflows; without it
the claim is false (`crafted_identifier_escapes`). -/
theorem load_any_partial (hb : ∀ x ∈ buf, x < 256) (hW : buf.length + 65536 < W) (hL : buf.length < 2 ^ 32 - 1)
    (hA : ∀ k, k < 2 ^ 32 → en.alloc ((k + 1) % 2 ^ 32) = true → buf.length + k < W)
    (hs : ∀ p b j k, declOf p l = some (.string b j k) → b.length ≤ 65536)
    (hp : Proper l) (hf : l.length + buf.length ≤ fuel) (hr : run fuel h0 l = .ok h) (hn : n ∈ nss l) :
    (∃ ok s l', read W fuel en h n buf = .ok (ok, s) ∧ Updates l n l' ∧ 2 * (l'.length - l.length) ≤ buf.length ∧ Proper l' ∧
        (∀ p v, valueOf p l' = some v → Param.read s.heap p = .ok v) ∧ s.mem.buf = buf ∧ s.mem.index ≤ buf.length) ∨
      (read W fuel en h n buf = .error .outOfBounds ∧ NulKey W buf) := by
  have hi := run_inv' hp (by omega) hr
  have hm : Inside buf (CmpMem.init buf) := ⟨rfl, Nat.zero_le _⟩
  obtain ⟨r, m1, e1, i1, i2, i3⟩ := readObject_total hb hm (show buf.length + 8 < W by omega)
  have stop : ∀ (x : Nat), ∃ ok s l', (Except.ok (false, ({ mem := m1, heap := h, errs := x } : RS)) : Except Param.Err (Bool × RS)) = .ok (ok, s) ∧
      Updates l n l' ∧ 2 * (l'.length - l.length) ≤ buf.length ∧ Proper l' ∧
      (∀ p v, valueOf p l' = some v → Param.read s.heap p = .ok v) ∧ s.mem.buf = buf ∧ s.mem.index ≤ buf.length :=
    fun x => ⟨_, _, l, rfl, ⟨[], rfl, fun op ho => by cases ho⟩, by omega, hp, fun p v hv => read_spec hi hp hv, i1.1, i1.2⟩
  simp only [read, e1, bind, Except.bind]
  by_cases hmap : ∃ k, r = some (.map k)
  · obtain ⟨k, rfl⟩ := hmap
    simp only
    have hadv := (i3 _ rfl).2
    rcases readNs_total (fuel := fuel) (en := en) (l := l) hb hW hL hA hs (buf.length + 1) n k l
        ({ mem := m1, heap := h, errs := 0 } : RS) hn ⟨rfl, rfl, fun _ => rfl, fun _ => rfl, fun _ => rfl⟩ hi hp i1
        (by simp only; omega) (by simp only; omega) with ⟨b, s', S, a1, a2, a3, a4, a5, a6, a7⟩ | ⟨a1, a2⟩
    · simp only at a1 a6 a7
      refine Or.inl ⟨b, s', S ++ l, a1, ⟨S, rfl, updates_of a3 a4⟩, ?_, a4, fun p v hv => read_spec a5 a4 hv, a2.1, a2.2⟩
      rw [List.length_append]
      have := a2.2
      omega
    · exact Or.inr ⟨a1, a2⟩
  · left
    cases r with
    | none => exact stop _
    | some o => cases o <;> first | exact stop _ | exact absurd ⟨_, rfl⟩ hmap

/-- What `Updates` leaves alone: parameters elsewhere in the tree. -/
theorem updates_outside {l' : List Op} (hu : Updates l n l') {p : Nat} (hp : ¬ Under l n (nsOf p l)) : valueOf p l' = valueOf p l := by
  obtain ⟨S, rfl, hS⟩ := hu
  induction S with
  | nil => rfl
  | cons op S ih =>
    obtain ⟨q, v, d, rfl, _, _, hq⟩ := hS op List.mem_cons_self
    have hne : q ≠ p := by rintro rfl; exact hp hq
    simp only [List.cons_append, valueOf, if_neg hne]
    exact ih (fun op ho => hS op (List.mem_cons_of_mem _ ho))

/-- After `Updates` a parameter that had a value has one, of its type and within its buffer. -/
theorem updates_value {l' : List Op} (hpr : Proper l) (hu : Updates l n l') {p : Nat} {d : Decl} {v : AVal} (hd : declOf p l = some d)
    (hv : valueOf p l = some v) : ∃ v', valueOf p l' = some v' ∧ Fits d v' := by
  obtain ⟨S, rfl, hS⟩ := hu
  induction S with
  | nil =>
    obtain ⟨d', hd', hf⟩ := fits_value hpr hv
    rw [hd] at hd'; injection hd' with hd'; subst hd'
    exact ⟨v, hv, hf⟩
  | cons op S ih =>
    obtain ⟨q, w, d', rfl, hd', hw, _⟩ := hS op List.mem_cons_self
    simp only [List.cons_append, valueOf]
    by_cases hq : q = p
    · rw [if_pos hq]
      rw [hq, hd] at hd'; injection hd' with hd'; subst hd'
      exact ⟨w, rfl, hw⟩
    · rw [if_neg hq]
      exact ih (fun op ho => hS op (List.mem_cons_of_mem _ ho))

/-- A load that fails has called the error callback – whatever the bytes, the tree and the outcome of allocations. -/
theorem failure_reported {s : RS} (hr : read W fuel en h n buf = .ok (false, s)) : 1 ≤ s.errs := by
  simp only [read, bind, Except.bind] at hr
  cases e1 : readObject W (CmpMem.init buf) with
  | error => rw [e1] at hr; cases hr
  | ok x =>
    obtain ⟨r, m⟩ := x
    rw [e1] at hr
    have bad : ∀ x : RS, (Except.ok (false, RS.err x) : Except Param.Err (Bool × RS)) = .ok (false, s) → 1 ≤ s.errs := by
      intro x h
      simp only [Except.ok.injEq, Prod.mk.injEq, true_and] at h
      subst h
      simp [RS.err]
    cases r with
    | none => exact bad _ hr
    | some o =>
      cases o with
      | map k => exact (reports_ns (buf.length + 1) n k { mem := m, heap := h, errs := 0 } false s hr).2 rfl
      | _ => exact bad _ hr

/-- The other way round is false: a value of the wrong type is reported, skipped, and the load goes on and succeeds. -/
theorem error_not_failure : (match run 30 blank demo with
    | .ok h => (match read 4294967296 40 ⟨fun _ => 0, fun _ => true⟩ h 0 [0x81, 0xA1, 115, 0x05] with
      | .ok (ok, s) => ok && s.errs == 1
      | _ => false)
    | _ => false : Bool) = true := by
  decide +kernel

/-- The exception in `load_any_partial` is real: the name "x\0" makes the comparison with "x" read behind its end. -/
theorem nul_name_escapes : (match run 9 blank twins with
    | .ok h => (match read 4294967296 20 ⟨fun _ => 0, fun _ => true⟩ h 0 [0x81, 0xA3, 120, 0, 0, 0x05] with
      | .error .outOfBounds => true
      | _ => false)
    | _ => false : Bool) = true := by
  decide +kernel

/-- Allocations that fail above 64 kB meet `hA`. -/
theorem alloc_ok {l : Nat} (hl : l + 65536 < 4294967296) (k : Nat) (hk : k < 2 ^ 32)
    (h : (decide (0 < (k + 1) % 2 ^ 32) && decide ((k + 1) % 2 ^ 32 ≤ 65536)) = true) : l + k < 4294967296 := by
  simp only [Bool.and_eq_true, decide_eq_true_eq] at h
  omega

/-- The hypotheses of `load_any_partial` for `demo` and a truncated document with an unknown name in it: the load sets `a/x` and
fails, the string `s` keeps its value. -/
example : ∃ h s, run 60 blank demo = .ok h ∧
    read 4294967296 60 ⟨fun _ => 0, fun k => decide (0 < k) && decide (k ≤ 65536)⟩ h 0
      [0x83, 0xA1, 97, 0x81, 0xA1, 120, 0xCA, 0, 0, 0, 9, 0xA1, 122, 0x01, 0xA1] = .ok (false, s) ∧ 1 ≤ s.errs ∧
    Param.read s.heap 10 = .ok (.scalar 9) ∧ Param.read s.heap 11 = .ok (.string [104, 105]) := by
  obtain ⟨h, hr⟩ : ∃ h, run 60 blank demo = .ok h := ok_of (by decide +kernel)
  have hx := load_any_partial (W := 4294967296) (fuel := 60) (en := ⟨fun _ => 0, fun k => decide (0 < k) && decide (k ≤ 65536)⟩) (n := 0)
    (buf := [0x83, 0xA1, 97, 0x81, 0xA1, 120, 0xCA, 0, 0, 0, 9, 0xA1, 122, 0x01, 0xA1]) (by decide) (by decide) (by decide)
    (fun k hk ha => alloc_ok (by decide) k hk ha)
    (by
      intro p b j k hd
      simp only [demo, declOf] at hd
      split at hd
      · injection hd with hd; injection hd with hd; subst hd; decide
      · split at hd
        · cases hd
        · cases hd)
    demo_proper (by decide) hr (by decide)
  have hc : (match run 60 blank demo with
    | .ok h => (match read 4294967296 60 ⟨fun _ => 0, fun k => decide (0 < k) && decide (k ≤ 65536)⟩ h 0
        [0x83, 0xA1, 97, 0x81, 0xA1, 120, 0xCA, 0, 0, 0, 9, 0xA1, 122, 0x01, 0xA1] with
      | .ok (ok, s) => !ok && decide ((Param.read s.heap 10).toOption = some (.scalar 9)) &&
        decide ((Param.read s.heap 11).toOption = some (.string [104, 105]))
      | _ => false)
    | _ => false : Bool) = true := by decide +kernel
  rw [hr] at hc
  simp only at hc
  rcases hx with ⟨ok, s, l', e, _⟩ | ⟨e, _⟩
  · rw [e] at hc
    simp only [Bool.and_eq_true, Bool.not_eq_true', decide_eq_true_eq] at hc
    obtain ⟨⟨rfl, h1⟩, h2⟩ := hc
    refine ⟨h, s, hr, e, failure_reported e, ?_, ?_⟩
    · cases hq : Param.read s.heap 10 with
      | error => rw [hq] at h1; cases h1
      | ok v => rw [hq] at h1; simp only [Except.toOption, Option.some.injEq] at h1; rw [h1]
    · cases hq : Param.read s.heap 11 with
      | error => rw [hq] at h2; cases h2
      | ok v => rw [hq] at h2; simp only [Except.toOption, Option.some.injEq] at h2; rw [h2]
  · rw [e] at hc; cases hc

end Verif.Msgpack
