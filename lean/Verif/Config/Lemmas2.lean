import Verif.Config.Lemmas
import Mathlib.Data.List.Induction

namespace Verif.Config

open Verif.Param
open HeapList

/-! ## Names -/

theorem letter_ne {c : Nat} (h : isLetter c = true) : c ≠ 0 ∧ c ≠ 45 ∧ c ≠ slash := by
  simp only [isLetter, Bool.or_eq_true, Bool.and_eq_true, decide_eq_true_eq, beq_iff_eq] at h
  unfold slash; omega

theorem digit_ne {c : Nat} (h : isDigit c = true) : c ≠ 0 ∧ c ≠ 45 ∧ c ≠ slash := by
  simp only [isDigit, Bool.and_eq_true, decide_eq_true_eq] at h
  unfold slash; omega

theorem ident_chars {k : Str} (h : isIdent k = true) : k ≠ [] ∧ ∀ c ∈ k, c ≠ 0 ∧ c ≠ 45 ∧ c ≠ slash := by
  cases k with
  | nil => cases h
  | cons c k =>
    simp only [isIdent, Bool.and_eq_true, List.all_eq_true, Bool.or_eq_true] at h
    refine ⟨by simp, fun x hx => ?_⟩
    rcases List.mem_cons.mp hx with rfl | hx
    · exact letter_ne h.1.1
    · rcases h.1.2 x hx with h | h
      · exact letter_ne h
      · exact digit_ne h

theorem ident_var {k : Str} (h : isIdent k = true) : var k = k := by
  unfold var
  conv => rhs; rw [← List.map_id k]
  apply List.map_congr_left
  intro c hc
  simp [((ident_chars h).2 c hc).2.1]

/-- What a name in the tree has to be. -/
structure NameOK (k : Str) : Prop where
  ne : k ≠ []
  nul : 0 ∉ k
  slash : slash ∉ k

theorem ident_ok {k : Str} (h : isIdent (var k) = true) : NameOK k := by
  obtain ⟨h1, h2⟩ := ident_chars h
  have key : ∀ c ∈ k, c ≠ 0 ∧ c ≠ slash := by
    intro c hc
    have := h2 (if c = 45 then 95 else c) (List.mem_map_of_mem hc)
    by_cases h45 : c = 45
    · subst h45; unfold Param.slash; omega
    · rw [if_neg h45] at this; exact ⟨this.1, this.2.2⟩
  refine ⟨?_, fun h => (key 0 h).1 rfl, fun h => (key slash h).2 rfl⟩
  rintro rfl
  exact h1 rfl

/-! ## A generated program which compiles -/

/-- What is known of the program `P` generated for the mapping `c` (the whole configuration). -/
structure Good (c : Dict) (P : Prog) : Prop where
  members : P.members = ([configName], .struct) :: ([configName, nsName], .ns) :: members (tree c [configName]) [configName]
  stmts : P.stmts = .ns [configName, nsName] none [] :: code c [configName]
  supported : Supported c
  ident : ∀ m ∈ P.members, ∃ k, m.1.getLast? = some k ∧ isIdent k = true
  nodup : (P.members.map (·.1)).Nodup

/-- The whole configuration. -/
def whole (m : Dict) : Dict := .sub masterName m .nil

theorem supported_whole {m : Dict} : Supported (whole m) ↔ Supported m := by
  constructor
  · exact fun h q hq => h _ (.deep hq)
  · intro h q hq
    cases hq with
    | skipSub hq => cases hq
    | deep hq => exact h _ hq

theorem good_of {m : Dict} {P : Prog} (hg : generate m = .ok P) (hc : P.compiles = true) (hne : NoEmpty m) (hn : m ≠ .nil) :
    Good (whole m) P := by
  have hE : NoEmpty (whole m) := ⟨hn, hne, trivial⟩
  have hgen : (do
      let code ← initCode (parseTree (whole m) configName)
      pure ({ members := ([configName], .struct) :: ([configName, nsName], .ns) :: Config.members (parseTree (whole m) configName) [configName],
              stmts := .ns [configName, nsName] none [] :: code } : Prog)) = .ok P := hg
  rw [parseTree_eq hE] at hgen
  cases hi : initCode (tree (whole m) [configName]) with
  | error e => rw [hi] at hgen; cases hgen
  | ok code =>
    rw [hi] at hgen
    simp only [bind, Except.bind, pure, Except.pure, Except.ok.injEq] at hgen
    obtain ⟨h1, h2⟩ := initCode_eq hi
    simp only [Prog.compiles, Bool.and_eq_true, List.all_eq_true, decide_eq_true_eq] at hc
    subst hgen
    refine ⟨rfl, by rw [h1], h2, ?_, hc.1.2⟩
    intro x hx
    have := hc.1.1 x hx
    cases hl : x.1.getLast? with
    | none => rw [hl] at this; cases this
    | some k => rw [hl] at this; exact ⟨k, rfl, this⟩

variable {c : Dict} {P : Prog}

theorem Good.sub_ident (hG : Good c P) {q : Path} {k : Str} (h : Sub c (q ++ [k])) : isIdent k = true := by
  have hm := (sub_members h (ps := [configName])).1
  obtain ⟨k', h1, h2⟩ := hG.ident _ (by rw [hG.members]; exact List.mem_cons_of_mem _ (List.mem_cons_of_mem _ hm))
  simp only [← List.append_assoc, List.getLast?_concat, Option.some.injEq] at h1
  rw [h1]; exact h2

theorem Good.leaf_ident (hG : Good c P) {q : Path} {k : Str} {v : Scalar} (h : Leaf c (q ++ [k]) v) : isIdent (var k) = true := by
  have hm := leaf_members h (ps := [configName]) rfl
  obtain ⟨k', h1, h2⟩ := hG.ident _ (by rw [hG.members]; exact List.mem_cons_of_mem _ (List.mem_cons_of_mem _ hm))
  simp only [List.getLast?_concat, Option.some.injEq] at h1
  rw [h1]; exact h2

theorem Good.sub_name (hG : Good c P) {q : Path} {k : Str} (h : Sub c (q ++ [k])) : NameOK k :=
  ident_ok (by rw [ident_var (hG.sub_ident h)]; exact hG.sub_ident h)

/-- Path of a namespace: the root or a mapping. -/
def IsNs (c : Dict) (q : Path) : Prop := q = [] ∨ Sub c q

theorem snoc_cases (q : Path) : q = [] ∨ ∃ q' k, q = q' ++ [k] := by
  rcases List.eq_nil_or_concat q with h | ⟨q', k, h⟩
  · exact .inl h
  · exact .inr ⟨q', k, by rw [h, List.concat_eq_append]⟩

theorem sub_prefix {d : Dict} {p : Path} (h : Sub d p) : ∀ {q : Path} {k : Str}, p = q ++ [k] → IsNs d q := by
  induction h with
  | here k d r =>
    intro q k' hp
    cases q with
    | nil => exact .inl rfl
    | cons a q => simp at hp
  | skipLeaf _ ih =>
    intro q k hp
    rcases ih hp with h | h
    · exact .inl h
    · exact .inr (.skipLeaf h)
  | skipSub _ ih =>
    intro q k hp
    rcases ih hp with h | h
    · exact .inl h
    · exact .inr (.skipSub h)
  | @deep k d r q hl ih =>
    intro q' k' hp
    obtain ⟨q'', rfl, h2⟩ := cons_snoc hp (sub_ne hl)
    rcases ih h2 with h | h
    · subst h; exact .inr (.here k d r)
    · exact .inr (.deep h)

theorem leaf_prefix {d : Dict} {p : Path} {v : Scalar} (h : Leaf d p v) : ∀ {q : Path} {k : Str}, p = q ++ [k] → IsNs d q := by
  induction h with
  | here k v r =>
    intro q k' hp
    cases q with
    | nil => exact .inl rfl
    | cons a q => simp at hp
  | skipLeaf _ ih =>
    intro q k hp
    rcases ih hp with h | h
    · exact .inl h
    · exact .inr (.skipLeaf h)
  | skipSub _ ih =>
    intro q k hp
    rcases ih hp with h | h
    · exact .inl h
    · exact .inr (.skipSub h)
  | @deep k d r q v hl ih =>
    intro q' k' hp
    obtain ⟨q'', rfl, h2⟩ := cons_snoc hp (leaf_ne hl)
    rcases ih h2 with h | h
    · subst h; exact .inr (.here k d r)
    · exact .inr (.deep h)

theorem nsObj_mem (hG : Good c P) {q : Path} (h : IsNs c q) : (nsObj q, CTy.ns) ∈ P.members := by
  rw [hG.members]
  rcases h with rfl | h
  · exact List.mem_cons_of_mem _ List.mem_cons_self
  · exact List.mem_cons_of_mem _ (List.mem_cons_of_mem _ (sub_members h (ps := [configName])).2)

theorem parObj_snoc (q : Path) (k : Str) : parObj (q ++ [k]) = [configName] ++ q ++ [var k] := by
  simp [parObj]

theorem parObj_mem (hG : Good c P) {q : Path} {v : Scalar} (h : Leaf c q v) : (parObj q, CTy.par) ∈ P.members := by
  obtain ⟨q', k, rfl⟩ := (snoc_cases q).resolve_left (leaf_ne h)
  rw [hG.members, parObj_snoc]
  exact List.mem_cons_of_mem _ (List.mem_cons_of_mem _ (leaf_members h rfl))

theorem mem_fst {o : Path} {t : CTy} (h : (o, t) ∈ P.members) : o ∈ P.members.map (·.1) := List.mem_map.mpr ⟨_, h, rfl⟩

theorem cell_inj {o o' : Path} (h : o ∈ P.members.map (·.1)) (he : P.cell o = P.cell o') : o = o' :=
  (List.idxOf_inj h).mp he

theorem cell_lt {o : Path} (h : o ∈ P.members.map (·.1)) : P.cell o < P.members.length := by
  have := List.idxOf_lt_length_of_mem h
  rwa [List.length_map] at this

theorem nsObj_inj {q q' : Path} (h : nsObj q = nsObj q') : q = q' := by
  simpa [nsObj] using h

theorem nsCell_inj (hG : Good c P) {q q' : Path} (h : IsNs c q) (he : P.cell (nsObj q) = P.cell (nsObj q')) : q = q' :=
  nsObj_inj (cell_inj (mem_fst (nsObj_mem hG h)) he)

theorem map_cell_nodup (hG : Good c P) {l : List Path} (h : l.Sublist (P.members.map (·.1))) : (l.map P.cell).Nodup := by
  apply List.Nodup.map_on
  · intro x hx y hy he
    exact cell_inj (h.subset hx) he
  · exact h.nodup hG.nodup

theorem code_ns_objs (hG : Good c P) : (nsObjs P.stmts).Sublist (P.members.map (·.1)) := by
  rw [hG.members, hG.stmts]
  simp only [nsObjs, List.map_cons]
  exact .cons _ (.cons₂ _ (nsObjs_sublist (fun q k h => ident_var (hG.sub_ident h))))

theorem code_par_objs (hG : Good c P) : (parObjs P.stmts).Sublist (P.members.map (·.1)) := by
  rw [hG.members, hG.stmts]
  simp only [parObjs, List.map_cons]
  exact .cons _ (.cons _ parObjs_sublist)

theorem proper (hG : Good c P) : Proper P.ops := by
  have h := proper_ops (P := P) (c := P.stmts) (l := []) (seen := []) trivial (by simp [nss]) (by simp [nss]) (by simp [pars])
    (map_cell_nodup hG (code_ns_objs hG)) (map_cell_nodup hG (code_par_objs hG)) (by
      rw [hG.stmts]
      refine ⟨by simp, by simp, ?_⟩
      apply closed_code
      · exact fun q k h => ⟨ident_var (hG.sub_ident h), (hG.sub_name h).nul⟩
      · exact fun q k v h => (ident_ok (hG.leaf_ident h)).nul
      · simp)
  simpa [Prog.ops] using h

/-! ### Declarations -/

theorem root_decl (hG : Good c P) : Op.declNs (P.cell (nsObj [])) none [] ∈ P.ops := by
  simp only [Prog.ops, List.mem_reverse, List.mem_map]
  exact ⟨.ns [configName, nsName] none [], by rw [hG.stmts]; exact List.mem_cons_self, rfl⟩

theorem ns_decl (hG : Good c P) {q : Path} {k : Str} (h : Sub c (q ++ [k])) :
    Op.declNs (P.cell (nsObj (q ++ [k]))) (some (P.cell (nsObj q))) k ∈ P.ops := by
  simp only [Prog.ops, List.mem_reverse, List.mem_map]
  refine ⟨_, by rw [hG.stmts]; exact List.mem_cons_of_mem _ (sub_code h rfl), ?_⟩
  simp [Prog.op, nsObj, ident_var (hG.sub_ident h)]

theorem ns_decl_inv (hG : Good c P) {n : Nat} {p : Option Nat} {id : Str} (h : Op.declNs n p id ∈ P.ops) :
    (n = P.cell (nsObj []) ∧ p = none ∧ id = []) ∨
    ∃ q, Sub c (q ++ [id]) ∧ n = P.cell (nsObj (q ++ [id])) ∧ p = some (P.cell (nsObj q)) := by
  simp only [Prog.ops, List.mem_reverse, List.mem_map] at h
  obtain ⟨s, hs, he⟩ := h
  cases s with
  | par t o n' id' b => obtain ⟨dc, hd, _⟩ := decl_ok P t o n' id' b; rw [hd] at he; cases he
  | ns o p' id' =>
    simp only [Prog.op, Op.declNs.injEq] at he
    obtain ⟨rfl, rfl, rfl⟩ := he
    rw [hG.stmts] at hs
    rcases List.mem_cons.mp hs with hs | hs
    · injection hs with h1 h2 h3
      subst h1 h2 h3
      exact .inl ⟨rfl, rfl, rfl⟩
    · obtain ⟨q, h1, h2, h3⟩ := mem_code_ns hs
      refine .inr ⟨q, h1, ?_, ?_⟩
      · rw [h2]; simp [nsObj, ident_var (hG.sub_ident h1)]
      · rw [h3]; simp [nsObj]

theorem par_decl (hG : Good c P) {q : Path} {k : Str} {v : Scalar} {t : Ty} (h : Leaf c (q ++ [k]) v) (ht : v.ty = some t) :
    ∃ dc, Op.declPar (P.cell (parObj (q ++ [k]))) (P.cell (nsObj q)) k dc ∈ P.ops ∧
      P.op (.par t (parObj (q ++ [k])) (nsObj q) k none) = .declPar (P.cell (parObj (q ++ [k]))) (P.cell (nsObj q)) k dc := by
  obtain ⟨b, hb⟩ := leaf_code h (ps := [configName]) rfl ht
  have hmem : P.op (.par t ([configName] ++ q ++ [var k]) ([configName] ++ q ++ [nsName]) k b) ∈ P.ops := by
    simp only [Prog.ops, List.mem_reverse, List.mem_map]
    exact ⟨_, by rw [hG.stmts]; exact List.mem_cons_of_mem _ hb, rfl⟩
  have hn : nsObj q = [configName] ++ q ++ [nsName] := by simp [nsObj]
  rw [parObj_snoc, hn]
  cases t <;> exact ⟨_, hmem, rfl⟩

theorem par_decl_inv (hG : Good c P) {p n : Nat} {id : Str} {dc : Decl} (h : Op.declPar p n id dc ∈ P.ops) :
    ∃ q v t, Leaf c (q ++ [id]) v ∧ v.ty = some t ∧ p = P.cell (parObj (q ++ [id])) ∧ n = P.cell (nsObj q) ∧
      P.op (.par t (parObj (q ++ [id])) (nsObj q) id none) = .declPar p n id dc := by
  simp only [Prog.ops, List.mem_reverse, List.mem_map] at h
  obtain ⟨s, hs, he⟩ := h
  cases s with
  | ns o p' id' => cases he
  | par t o n' id' b =>
    have hid : id' = id ∧ P.cell o = p ∧ P.cell n' = n := by
      cases t <;> (simp only [Prog.op, Op.declPar.injEq] at he; exact ⟨he.2.2.1, he.1, he.2.1⟩)
    obtain ⟨rfl, rfl, rfl⟩ := hid
    rw [hG.stmts] at hs
    rcases List.mem_cons.mp hs with hs | hs
    · cases hs
    · obtain ⟨q, v, h1, h2, h3, h4⟩ := mem_code_par hs
      have hn : nsObj q = [configName] ++ q ++ [nsName] := by simp [nsObj]
      refine ⟨q, v, t, h1, h2, by rw [h3, parObj_snoc], by rw [h4, hn], ?_⟩
      rw [parObj_snoc, hn, ← h3, ← h4, ← he]
      cases t <;> rfl

theorem root_mem (hG : Good c P) : P.cell (nsObj []) ∈ nss P.ops := mem_nss.mpr ⟨_, _, root_decl hG⟩

theorem ns_mem (hG : Good c P) {q : Path} (h : IsNs c q) : P.cell (nsObj q) ∈ nss P.ops := by
  rcases h with rfl | h
  · exact root_mem hG
  · obtain ⟨q', k, rfl⟩ := (snoc_cases q).resolve_left (sub_ne h)
    exact mem_nss.mpr ⟨_, _, ns_decl hG h⟩

theorem mem_ns (hG : Good c P) {n : Nat} (h : n ∈ nss P.ops) : ∃ q, IsNs c q ∧ n = P.cell (nsObj q) := by
  obtain ⟨p, id, hd⟩ := mem_nss.mp h
  rcases ns_decl_inv hG hd with ⟨h1, _⟩ | ⟨q, h1, h2, _⟩
  · exact ⟨[], .inl rfl, h1⟩
  · exact ⟨_, .inr h1, h2⟩

/-- Walking down the keys leads to the object of the mapping. -/
theorem atPath_iff (hG : Good c P) {q : Path} {n : Nat} :
    AtPath P.ops (P.cell (nsObj [])) q n ↔ IsNs c q ∧ n = P.cell (nsObj q) := by
  have hp := proper hG
  constructor
  · intro h
    suffices hh : ∀ {a b : Nat} {cs : List Str}, AtPath P.ops a cs b → ∀ q0, IsNs c q0 → a = P.cell (nsObj q0) →
        IsNs c (q0 ++ cs) ∧ b = P.cell (nsObj (q0 ++ cs)) from hh h [] (.inl rfl) rfl
    intro a b cs h
    induction h with
    | nil n => intro q0 h0 ha; simpa using ⟨h0, ha⟩
    | @cons n m k cs hm hpar _ ih =>
      intro q0 h0 ha
      obtain ⟨p, id, hd⟩ := mem_nss.mp hm
      obtain ⟨e1, e2⟩ := decl_ns hp hd
      rcases ns_decl_inv hG hd with ⟨_, h2, _⟩ | ⟨q', h1, h2, h3⟩
      · rw [e2, h2] at hpar; cases hpar
      · rw [e2, h3, ha] at hpar
        injection hpar with hpar
        have := nsCell_inj hG (sub_prefix h1 rfl) hpar
        subst this
        have := ih (q' ++ [id]) (.inr h1) h2
        rw [e1]
        simpa using this
  · rintro ⟨h, rfl⟩
    suffices hh : ∀ q, IsNs c q → AtPath P.ops (P.cell (nsObj [])) q (P.cell (nsObj q)) from hh q h
    intro q
    induction q using List.reverseRecOn with
    | nil => intro _; exact .nil _
    | append_singleton q k ih =>
      intro h
      have hs : Sub c (q ++ [k]) := by
        rcases h with h | h
        · simp at h
        · exact h
      have hd := ns_decl hG hs
      obtain ⟨e1, e2⟩ := decl_ns hp hd
      have snoc : ∀ {n q m : Nat} {cs : List Str}, AtPath P.ops n cs q → m ∈ nss P.ops → parentOf m P.ops = some q →
          AtPath P.ops n (cs ++ [nsIdOf m P.ops]) m := by
        intro n q m cs h hm hq
        induction h with
        | nil n => exact .cons hm hq (.nil m)
        | cons h1 h2 _ ih => exact .cons h1 h2 (ih hq)
      have := snoc (ih (sub_prefix hs rfl)) (mem_nss.mpr ⟨_, _, hd⟩) e2
      rwa [e1] at this

theorem distinct (hG : Good c P) : Distinct P.ops := by
  have hp := proper hG
  constructor
  · intro m hm m' hm' hpar he hid
    obtain ⟨p, id, hd⟩ := mem_nss.mp hm
    obtain ⟨p', id', hd'⟩ := mem_nss.mp hm'
    obtain ⟨e1, e2⟩ := decl_ns hp hd
    obtain ⟨e1', e2'⟩ := decl_ns hp hd'
    rcases ns_decl_inv hG hd with ⟨_, h2, _⟩ | ⟨q, h1, h2, h3⟩
    · rw [e2] at hpar; exact absurd h2 hpar
    · rcases ns_decl_inv hG hd' with ⟨_, h2', _⟩ | ⟨q', h1', h2', h3'⟩
      · rw [e2, e2', h2'] at he; exact absurd (e2.trans he) hpar
      · rw [e2, e2', h3, h3'] at he
        injection he with he
        have := nsCell_inj hG (sub_prefix h1 rfl) he
        rw [e1, e1'] at hid
        rw [h2, h2', hid, this]
  · intro p hm p' hm' he hid
    obtain ⟨n, id, dc, hd⟩ := mem_pars.mp hm
    obtain ⟨n', id', dc', hd'⟩ := mem_pars.mp hm'
    obtain ⟨e1, e2, _⟩ := decl_par hp hd
    obtain ⟨e1', e2', _⟩ := decl_par hp hd'
    obtain ⟨q, v, t, h1, _, h3, h4, _⟩ := par_decl_inv hG hd
    obtain ⟨q', v', t', h1', _, h3', h4', _⟩ := par_decl_inv hG hd'
    rw [e2, e2', h4, h4'] at he
    have := nsCell_inj hG (leaf_prefix h1 rfl) he
    rw [e1, e1'] at hid
    rw [h3, h3', hid, this]

theorem par_mem (hG : Good c P) {q : Path} {v : Scalar} (h : Leaf c q v) : P.cell (parObj q) ∈ pars P.ops := by
  obtain ⟨q', k, rfl⟩ := (snoc_cases q).resolve_left (leaf_ne h)
  have ht : ∃ t, v.ty = some t := by
    cases v with
    | other => exact absurd h (hG.supported _)
    | _ => exact ⟨_, rfl⟩
  obtain ⟨t, ht⟩ := ht
  obtain ⟨dc, hd, _⟩ := par_decl hG h ht
  exact mem_pars.mpr ⟨_, _, _, hd⟩

/-- The parameter of a value has one place only. -/
theorem parCell_inj (hG : Good c P) {q q' : Path} {v v' : Scalar} (h : Leaf c q v) (h' : Leaf c q' v')
    (he : P.cell (parObj q) = P.cell (parObj q')) : q = q' := by
  have hp := proper hG
  obtain ⟨q1, k, rfl⟩ := (snoc_cases q).resolve_left (leaf_ne h)
  obtain ⟨q2, k', rfl⟩ := (snoc_cases q').resolve_left (leaf_ne h')
  have hty : ∀ {v : Scalar} {q : Path}, Leaf c q v → ∃ t, v.ty = some t := by
    intro v q h
    cases v with
    | other => exact absurd h (hG.supported _)
    | _ => exact ⟨_, rfl⟩
  obtain ⟨t, ht⟩ := hty h
  obtain ⟨t', ht'⟩ := hty h'
  obtain ⟨dc, hd, _⟩ := par_decl hG h ht
  obtain ⟨dc', hd', _⟩ := par_decl hG h' ht'
  obtain ⟨e1, e2, _⟩ := decl_par hp hd
  obtain ⟨e1', e2', _⟩ := decl_par hp hd'
  rw [he, e1'] at e1
  rw [he, e2'] at e2
  have := nsCell_inj hG (leaf_prefix h' rfl) e2
  rw [this, e1]

/-! ### Values are unique -/

theorem leaf_first {d : Dict} {p : Path} {v : Scalar} (h : Leaf d p v) : ∀ {k : Str} {q : Path}, p = k :: q → q ≠ [] → Sub d [k] := by
  induction h with
  | here k v r => intro k' q hp hq; simp at hp; exact absurd hp.2.symm (by simpa using Ne.symm hq)
  | skipLeaf _ ih => intro k q hp hq; exact .skipLeaf (ih hp hq)
  | skipSub _ ih => intro k q hp hq; exact .skipSub (ih hp hq)
  | @deep k d r q v hl ih =>
    intro k' q' hp hq
    simp only [List.cons.injEq] at hp
    obtain ⟨rfl, rfl⟩ := hp
    exact .here k d r

theorem leaf_unique : ∀ {d : Dict} {ps q : Path} {v v' : Scalar}, ((members (tree d ps) ps).map (·.1)).Nodup → Leaf d q v → Leaf d q v' → v = v'
  | .nil, _, _, _, _, _, h, _ => by cases h
  | .leaf k w r, ps, q, v, v', hn, h, h' => by
    simp only [tree, members, List.map_cons, List.map_append, List.nodup_cons, List.nodup_append, List.mem_append, not_or] at hn
    have no : ∀ x, ¬ Leaf r [k] x := fun x hx => hn.1.2 (List.mem_map.mpr ⟨_, leaf_members hx (q := []) (k := k) rfl, by simp⟩)
    cases h with
    | here =>
      cases h' with
      | here => rfl
      | skipLeaf h' => exact absurd h' (no _)
    | skipLeaf h =>
      cases h' with
      | here => exact absurd h (no _)
      | skipLeaf h' => exact leaf_unique hn.2.2.1 h h'
  | .sub k d r, ps, q, v, v', hn, h, h' => by
    simp only [tree, members, List.map_cons, List.map_append, List.nodup_cons, List.nodup_append, List.mem_cons, List.mem_append, not_or] at hn
    have no : ¬ Sub r [k] := fun hx => hn.1.2.2 (List.mem_map.mpr ⟨_, (sub_members hx (ps := ps)).1, rfl⟩)
    cases h with
    | skipSub h =>
      cases h' with
      | skipSub h' => exact leaf_unique hn.2.2.2.1 h h'
      | deep h' => exact absurd (leaf_first h rfl (leaf_ne h')) no
    | deep h =>
      cases h' with
      | skipSub h' => exact absurd (leaf_first h' rfl (leaf_ne h)) no
      | deep h' => exact leaf_unique hn.2.2.1 h h'

theorem Good.unique (hG : Good c P) {q : Path} {v v' : Scalar} (h : Leaf c q v) (h' : Leaf c q v') : v = v' := by
  have hn := hG.nodup
  rw [hG.members] at hn
  simp only [List.map_cons, List.nodup_cons] at hn
  exact leaf_unique hn.2.2 h h'

end Verif.Config
