import Verif.Param.Props
import Verif.ParamServer.Model
import Mathlib.Data.List.Nodup
import Mathlib.Data.List.Infix

namespace Verif.ParamServer

open Verif.Param HeapList

/-! ## The enumeration -/

/-- Parameters below a namespace in the order of the search. -/
def order (l : List Op) : Nat → Nat → List Nat
  | 0, _ => []
  | d + 1, n => parsIn n l ++ (subs n l).flatMap (order l d)

/-- What a search for index `w` in `ps`, starting to count at `cur`, returns. -/
def hit (ps : List Nat) (w cur : Nat) : Option Nat × Nat :=
  if w - cur < ps.length then (ps[w - cur]?, w) else (none, cur + ps.length)

theorem hit_nil (w cur : Nat) : hit [] w cur = (none, cur) := by simp [hit]

theorem hit_found {ps : List Nat} {w cur : Nat} (h : w - cur < ps.length) : hit ps w cur = (some ps[w - cur], w) := by
  simp [hit, h]

theorem hit_missed {ps : List Nat} {w cur : Nat} (h : ¬ w - cur < ps.length) : hit ps w cur = (none, cur + ps.length) := by
  simp [hit, h]

theorem hit_append_left {a b : List Nat} {w cur : Nat} (h : w - cur < a.length) : hit (a ++ b) w cur = hit a w cur := by
  rw [hit_found h, hit_found (by simp; omega), List.getElem_append_left h]

theorem hit_append_right {a b : List Nat} {w cur : Nat} (hc : cur ≤ w) (h : ¬ w - cur < a.length) :
    hit (a ++ b) w cur = hit b w (cur + a.length) := by
  by_cases hb : w - (cur + a.length) < b.length
  · rw [hit_found hb, hit_found (by simp; omega), List.getElem_append_right (by omega)]
    congr 3; omega
  · rw [hit_missed hb, hit_missed (by simp; omega)]
    simp; omega

theorem parLoop_spec {next : Nat → Option Nat} {w : Nat} : ∀ {ps : List Nat} {fuel : Nat} {p : Option Nat} {cur : Nat},
    IsList next p ps → ps.length ≤ fuel → cur ≤ w → parLoop next w fuel p cur = .ok (hit ps w cur)
  | [], fuel, p, cur, hl, _, _ => by
    simp only [IsList] at hl; subst hl
    rw [hit_nil]; cases fuel <;> rfl
  | x :: ps, 0, p, cur, _, hf, _ => by simp at hf
  | x :: ps, f + 1, p, cur, hl, hf, hc => by
    obtain ⟨hx, hl⟩ := hl
    subst hx
    simp only [parLoop]
    by_cases h : cur = w
    · subst h; rw [if_pos rfl, hit_found (by simp)]; simp
    · rw [if_neg h, parLoop_spec hl (by simpa using hf) (by omega),
        show x :: ps = [x] ++ ps from rfl, hit_append_right hc (by simp; omega)]
      rfl

theorem nsLoop_spec {rec : Nat → Nat → Except Err (Option Nat × Nat)} {g : Nat → List Nat} {next : Nat → Option Nat} {w : Nat} :
    ∀ {ns : List Nat} {fuel : Nat} {p : Option Nat} {cur : Nat},
    (∀ m ∈ ns, ∀ cur, cur ≤ w → rec m cur = .ok (hit (g m) w cur)) →
    IsList next p ns → ns.length ≤ fuel → cur ≤ w → nsLoop rec next fuel p cur = .ok (hit (ns.flatMap g) w cur)
  | [], fuel, p, cur, _, hl, _, _ => by
    simp only [IsList] at hl; subst hl
    rw [List.flatMap_nil, hit_nil]; cases fuel <;> rfl
  | x :: ns, 0, p, cur, _, _, hf, _ => by simp at hf
  | x :: ns, f + 1, p, cur, hg, hl, hf, hc => by
    obtain ⟨hx, hl⟩ := hl
    subst hx
    simp only [nsLoop, hg x List.mem_cons_self cur hc, List.flatMap_cons]
    by_cases h : w - cur < (g x).length
    · rw [hit_append_left h, hit_found h]; rfl
    · rw [hit_append_right hc h, hit_missed h]
      exact nsLoop_spec (fun m hm => hg m (List.mem_cons_of_mem _ hm)) hl (by simpa using hf) (by omega)

theorem chain_child {l : List Op} (hp : Proper l) {n m : Nat} (hm : m ∈ subs n l) : chain m l = m :: chain n l := by
  obtain ⟨h1, h2⟩ := (mem_subs hp).mp hm
  rw [chain_unfold hp h1, h2]

theorem byIndexFrom_spec {fuel : Nat} {l : List Op} {h : Heap} (ht : Tree l h) (hp : Proper l) (hf : l.length ≤ fuel) {w : Nat} :
    ∀ (d n cur : Nat), n ∈ nss l → l.length < d + (chain n l).length → cur ≤ w →
    byIndexFrom fuel h w d n cur = .ok (hit (order l d n) w cur)
  | 0, n, cur, _, hd, _ => by have := chain_length n l; omega
  | d + 1, n, cur, hn, hd, hc => by
    simp only [byIndexFrom, order]
    rw [parLoop_spec (ht.plist n hn) (Nat.le_trans (parsIn_length n l) hf) hc]
    by_cases hw : w - cur < (parsIn n l).length
    · rw [hit_append_left hw, hit_found hw]; rfl
    · rw [hit_append_right hc hw, hit_missed hw]
      refine nsLoop_spec (g := order l d) ?_ (ht.subs n hn) (Nat.le_trans (subs_length n l) hf) (by omega)
      intro m hm cur' hc'
      refine byIndexFrom_spec ht hp hf d m cur' (subs_nss hm) ?_ hc'
      rw [chain_child hp hm, List.length_cons]; omega

theorem under_trans {l : List Op} {a b c : Nat} (h1 : Under l a b) (h2 : Under l b c) : Under l a c := by
  induction h2 with
  | self => exact h1
  | child hm hq _ ih => exact .child hm hq ih

theorem under_cases {l : List Op} (hp : Proper l) {a c : Nat} (h : Under l a c) : c = a ∨ ∃ m ∈ subs a l, Under l m c := by
  induction h with
  | self => exact .inl rfl
  | @child m q hm hq _ ih =>
    right
    rcases ih with rfl | ⟨k, hk, hu⟩
    · exact ⟨m, (mem_subs hp).mpr ⟨hm, hq⟩, .self⟩
    · exact ⟨k, hk, .child hm hq hu⟩

theorem mem_order {l : List Op} (hp : Proper l) {p : Nat} : ∀ (d n : Nat), n ∈ nss l → l.length < d + (chain n l).length →
    (p ∈ order l d n ↔ p ∈ pars l ∧ Under l n (nsOf p l))
  | 0, n, _, hd => by have := chain_length n l; omega
  | d + 1, n, hn, hd => by
    have ih : ∀ m ∈ subs n l, (p ∈ order l d m ↔ p ∈ pars l ∧ Under l m (nsOf p l)) := fun m hm =>
      mem_order hp d m (subs_nss hm) (by rw [chain_child hp hm, List.length_cons]; omega)
    simp only [order, List.mem_append, List.mem_flatMap]
    constructor
    · rintro (h | ⟨m, hm, h⟩)
      · obtain ⟨h1, h2⟩ := (mem_parsIn hp).mp h
        exact ⟨h1, h2 ▸ .self⟩
      · obtain ⟨h1, h2⟩ := (ih m hm).mp h
        obtain ⟨h3, h4⟩ := (mem_subs hp).mp hm
        exact ⟨h1, under_trans (.child h3 h4 .self) h2⟩
    · rintro ⟨h1, h2⟩
      rcases under_cases hp h2 with h | ⟨m, hm, h⟩
      · exact .inl ((mem_parsIn hp).mpr ⟨h1, h⟩)
      · exact .inr ⟨m, hm, (ih m hm).mpr ⟨h1, h⟩⟩

theorem parsIn_sublist (n : Nat) : ∀ l : List Op, (parsIn n l).Sublist (pars l)
  | [] => .slnil
  | .declPar p m _ _ :: l => by
    simp only [parsIn, pars]
    split
    · exact (parsIn_sublist n l).cons₂ _
    · exact (parsIn_sublist n l).cons _
  | .declNs _ _ _ :: l => parsIn_sublist n l
  | .set _ _ :: l => parsIn_sublist n l
  | .get _ :: l => parsIn_sublist n l

theorem subs_sublist (n : Nat) : ∀ l : List Op, (subs n l).Sublist (nss l)
  | [] => .slnil
  | .declNs p m _ :: l => by
    simp only [subs, nss]
    split
    · exact (subs_sublist n l).cons₂ _
    · exact (subs_sublist n l).cons _
  | .declPar _ _ _ _ :: l => subs_sublist n l
  | .set _ _ :: l => subs_sublist n l
  | .get _ :: l => subs_sublist n l

theorem nss_nodup : ∀ {l : List Op}, Proper l → (nss l).Nodup
  | [], _ => List.nodup_nil
  | .declNs _ _ _ :: _, h => List.nodup_cons.mpr ⟨h.1, nss_nodup h.2.2.2⟩
  | .declPar _ _ _ _ :: l, h => nss_nodup (l := l) h.2.2.2.2
  | .set _ _ :: l, h => nss_nodup (l := l) h.2
  | .get _ :: l, h => nss_nodup (l := l) h.2

theorem chain_suffix {l : List Op} (hp : Proper l) {a c : Nat} (h : Under l a c) : chain a l <:+ chain c l := by
  induction h with
  | self => exact List.suffix_refl _
  | child hm hq _ ih =>
    rw [chain_unfold hp hm, hq]
    exact ih.trans (List.suffix_cons _ _)

/-- Nothing is below two children of the same namespace. -/
theorem under_unique {l : List Op} (hp : Proper l) {n a b c : Nat} (ha : a ∈ subs n l) (hb : b ∈ subs n l)
    (h1 : Under l a c) (h2 : Under l b c) : a = b := by
  have s1 := chain_suffix hp h1
  have s2 := chain_suffix hp h2
  rw [chain_child hp ha] at s1
  rw [chain_child hp hb] at s2
  have := (List.suffix_of_suffix_length_le s1 s2 (by simp)).eq_of_length (by simp)
  injection this

/-- A namespace is not below its child. -/
theorem not_under_child {l : List Op} (hp : Proper l) {n m : Nat} (hm : m ∈ subs n l) (h : Under l m n) : False := by
  have s := (chain_suffix hp h).length_le
  rw [chain_child hp hm, List.length_cons] at s
  omega

theorem nodup_order {l : List Op} (hp : Proper l) : ∀ (d n : Nat), n ∈ nss l → l.length < d + (chain n l).length →
    (order l d n).Nodup
  | 0, n, _, hd => by have := chain_length n l; omega
  | d + 1, n, hn, hd => by
    have hd' : ∀ m ∈ subs n l, l.length < d + (chain m l).length := fun m hm => by
      rw [chain_child hp hm, List.length_cons]; omega
    have hmem : ∀ m ∈ subs n l, ∀ p, (p ∈ order l d m ↔ p ∈ pars l ∧ Under l m (nsOf p l)) := fun m hm p =>
      mem_order hp d m (subs_nss hm) (hd' m hm)
    simp only [order]
    refine List.nodup_append'.mpr ⟨(parsIn_sublist n l).nodup (pars_nodup hp), ?_, ?_⟩
    · refine List.nodup_flatMap.mpr ⟨fun m hm => nodup_order hp d m (subs_nss hm) (hd' m hm), ?_⟩
      refine List.Pairwise.imp_of_mem ?_ ((subs_sublist n l).nodup (nss_nodup hp))
      intro a b ha hb hne p h1 h2
      exact hne (under_unique hp ha hb ((hmem a ha p).mp h1).2 ((hmem b hb p).mp h2).2)
    · intro p h1 h2
      obtain ⟨m, hm, h2⟩ := List.mem_flatMap.mp h2
      have h3 := ((hmem m hm p).mp h2).2
      rw [((mem_parsIn hp).mp h1).2] at h3
      exact not_under_child hp hm h3

theorem hit_index (ps : List Nat) (i : Nat) : (hit ps i 0).1 = ps[i]? := by
  by_cases h : i - 0 < ps.length
  · rw [hit_found h]; simp at h; simp [h]
  · rw [hit_missed h]; simp at h; simp [h]

/-! ## Names -/

theorem heightLoop_spec {parent : Nat → Option Nat} : ∀ {ns : List Nat} {fuel : Nat} {p : Option Nat} {i : Nat},
    IsList parent p ns → ns.length ≤ fuel → heightLoop parent fuel p i = .ok (i + ns.length)
  | [], fuel, p, i, hl, _ => by
    simp only [IsList] at hl; subst hl
    cases fuel <;> rfl
  | x :: ns, 0, p, i, _, hf => by simp at hf
  | x :: ns, f + 1, p, i, hl, hf => by
    obtain ⟨hx, hl⟩ := hl
    subst hx
    simp only [heightLoop]
    rw [heightLoop_spec hl (by simpa using hf)]
    simp; omega

theorem up_spec {parent : Nat → Option Nat} : ∀ {ns : List Nat} {k n : Nat}, IsList parent (some n) ns → (hk : k < ns.length) →
    up parent k n = .ok ns[k]
  | [], _, _, _, hk => by simp at hk
  | x :: ns, 0, n, hl, _ => by
    obtain ⟨hx, _⟩ := hl
    injection hx with hx; subst hx; rfl
  | x :: ns, k + 1, n, hl, hk => by
    obtain ⟨hx, hl⟩ := hl
    injection hx with hx; subst hx
    simp only [up]
    cases hpn : parent n with
    | none =>
      rw [hpn] at hl
      cases ns with
      | nil => simp at hk
      | cons y ys => cases hl.1
    | some m =>
      rw [hpn] at hl
      simpa using up_spec hl (by simpa using hk)

def pieces (l : List Op) (ns : List Nat) : Str := ns.flatMap (fun n => nsIdOf n l ++ [slash])

theorem nameLoop_spec {l : List Op} {h : Heap} {p : Nat} {ns : List Nat} (hl : IsList h.parent (some (h.parNs p)) ns)
    (hid : ∀ n ∈ ns, h.nsId n = nsIdOf n l) : ∀ (k : Nat) (name : Str), k + 1 ≤ ns.length →
    nameLoop h p (k + 1) name = .ok (name ++ pieces l (ns.take k).reverse)
  | 0, name, _ => by simp [nameLoop, pieces]
  | k + 1, name, hk => by
    have hk' : k < ns.length := by omega
    simp only [nameLoop, up_spec hl hk']
    show nameLoop h p (k + 1) _ = _
    rw [nameLoop_spec hl hid k _ (by omega), hid _ (List.getElem_mem hk'), show (ns.take (k + 1)) = ns.take k ++ [ns[k]] from List.take_succ_eq_append_getElem hk']
    simp only [pieces, List.reverse_append, List.reverse_singleton, List.singleton_append, List.flatMap_cons, List.append_assoc]

theorem atPath_snoc {l : List Op} {n q m : Nat} {cs : List Str} (h : AtPath l n cs q) (hm : m ∈ nss l) (hq : parentOf m l = some q) :
    AtPath l n (cs ++ [nsIdOf m l]) m := by
  induction h with
  | nil n => exact .cons hm hq (.nil m)
  | cons h1 h2 _ ih => exact .cons h1 h2 (ih hq)

theorem chain_path {l : List Op} (hp : Proper l) {root n : Nat} (hr : root ∈ nss l) (htop : parentOf root l = none) (h : Under l root n) :
    AtPath l root ((chain n l).dropLast.reverse.map (nsIdOf · l)) n := by
  induction h with
  | self =>
    rw [chain_unfold hp hr, htop]; exact .nil _
  | @child m q hm hq hu ih =>
    have hqn := parentOf_nss hp hq
    rw [chain_unfold hp hm, hq]
    have hne : chain q l ≠ [] := by rw [chain_unfold hp hqn]; simp
    rw [List.dropLast_cons_of_ne_nil hne, List.reverse_cons, List.map_append]
    exact atPath_snoc ih hm hq

theorem components_app {c : Str} (hc : slash ∉ c) (s : Str) : components (c ++ slash :: s) = c :: components s := by
  induction c with
  | nil => simp [components]
  | cons x c ih =>
    have h1 : x ≠ slash := fun e => hc (by simp [e])
    rw [List.cons_append]
    simp only [components, if_neg h1, ih (fun e => hc (List.mem_cons_of_mem _ e))]

/-- The text of a path. -/
def render (cs : List Str) (c : Str) : Str := slash :: (cs.flatMap (· ++ [slash]) ++ c)

theorem components_flat : ∀ {cs : List Str} {c : Str}, (∀ x ∈ cs, slash ∉ x) → slash ∉ c →
    components (cs.flatMap (· ++ [slash]) ++ c) = cs ++ [c]
  | [], c, _, hc => by simpa using components_single hc
  | x :: cs, c, hx, hc => by
    rw [List.flatMap_cons, List.append_assoc, List.append_assoc, List.singleton_append,
      components_app (hx x List.mem_cons_self),
      components_flat (fun y hy => hx y (List.mem_cons_of_mem _ hy)) hc, List.cons_append]

theorem components_render {cs : List Str} {c : Str} (hx : ∀ x ∈ cs, slash ∉ x) (hc : slash ∉ c) :
    components (render cs c) = ([] :: cs) ++ [c] := by
  rw [render, ← List.nil_append (slash :: _), components_app (by simp), components_flat hx hc]; rfl

theorem atPath_ids {l : List Op} {P : Str → Prop} {n m : Nat} {cs : List Str} (h : AtPath l n cs m)
    (hP : ∀ k ∈ nss l, parentOf k l ≠ none → P (nsIdOf k l)) : ∀ x ∈ cs, P x := by
  induction h with
  | nil => intro x hx; cases hx
  | cons h1 h2 _ ih =>
    intro x hx
    rcases List.mem_cons.mp hx with rfl | hx
    · exact hP _ h1 (by rw [h2]; simp)
    · exact ih x hx

theorem nsIdOf_nul : ∀ {l : List Op} {n : Nat}, Proper l → 0 ∉ nsIdOf n l
  | [], _, _ => by simp [nsIdOf]
  | .declNs m q id :: l, n, h => by
    simp only [nsIdOf]; split
    · exact h.2.2.1
    · exact nsIdOf_nul h.2.2.2
  | .declPar _ _ _ _ :: l, _, h => nsIdOf_nul (l := l) h.2.2.2.2
  | .set _ _ :: l, _, h => nsIdOf_nul (l := l) h.2
  | .get _ :: l, _, h => nsIdOf_nul (l := l) h.2

theorem parIdOf_nul : ∀ {l : List Op} {n : Nat}, Proper l → 0 ∉ parIdOf n l
  | [], _, _ => by simp [parIdOf]
  | .declPar m q id d :: l, n, h => by
    simp only [parIdOf]; split
    · exact h.2.2.1
    · exact parIdOf_nul h.2.2.2.2
  | .declNs _ _ _ :: l, _, h => parIdOf_nul (l := l) h.2.2.2
  | .set _ _ :: l, _, h => parIdOf_nul (l := l) h.2
  | .get _ :: l, _, h => parIdOf_nul (l := l) h.2

theorem cStr_nul : ∀ s : Str, 0 ∉ cStr s
  | [] => by simp [cStr]
  | c :: s => by
    have ih := cStr_nul s
    unfold cStr at ih ⊢
    rw [List.takeWhile_cons]
    split
    · rename_i h
      simp only [ne_eq, decide_eq_true_eq] at h
      simpa [List.mem_cons, Ne.symm h] using ih
    · simp

theorem cStr_self : ∀ {s : Str}, 0 ∉ s → cStr s = s
  | [], _ => rfl
  | c :: s, h => by
    have h1 : c ≠ 0 := by rintro rfl; simp at h
    have ih := cStr_self (s := s) (fun e => h (List.mem_cons_of_mem _ e))
    unfold cStr at ih ⊢
    rw [List.takeWhile_cons, if_pos (by simpa using h1), ih]

end Verif.ParamServer
