import Verif.Config.Spec
import Verif.Param.Props
import Verif.Msgpack.ReadLemmas
import Mathlib.Data.List.Nodup

namespace Verif.Config

open Verif.Param
open HeapList

/-! ## The tree of objects -/

/-- The objects for a mapping without empty mappings inside. -/
def tree : Dict → Path → Nodes
  | .nil, _ => .nil
  | .leaf k v rest, ps => .par k v ps (tree rest ps)
  | .sub k d rest, ps => .ns k (tree d (ps ++ [k])) ps (tree rest ps)

theorem depth_ge : ∀ {d : Dict} {l : Nat}, NoEmpty d → d ≠ .nil → l ≤ depth d l
  | .nil, _, _, h => absurd rfl h
  | .leaf _ _ r, l, _, _ => by simp only [depth]; omega
  | .sub _ d r, l, h, _ => by
    have := depth_ge (d := d) (l := l + 1) h.2.1 h.1
    simp only [depth]; omega

/-- No mapping directly inside. -/
def Flat : Dict → Prop
  | .nil => True
  | .leaf _ _ r => Flat r
  | .sub _ _ _ => False

theorem depth_flat : ∀ {d : Dict} {l : Nat}, NoEmpty d → depth d l ≤ l → Flat d
  | .nil, _, _, _ => trivial
  | .leaf _ _ r, l, h, hl => by
    simp only [depth] at hl
    exact depth_flat (d := r) (l := l) h (by omega)
  | .sub _ d r, l, h, hl => by
    have := depth_ge (d := d) (l := l + 1) h.2.1 h.1
    simp only [depth] at hl
    omega

theorem flat_tree : ∀ {d : Dict} {ps : Path}, Flat d → flat d ps = tree d ps
  | .nil, _, _ => rfl
  | .leaf k v r, ps, h => by simp only [flat, tree, flat_tree (d := r) h]
  | .sub _ _ _, _, h => h.elim

theorem pick_eq {d : Dict} {ps : Path} (h : NoEmpty d) (hc : children d ps = tree d ps) :
    pick (depth d 1) (flat d ps) (children d ps) = tree d ps := by
  by_cases hn : d = .nil
  · subst hn; rfl
  · have h1 := depth_ge (l := 1) h hn
    unfold pick
    by_cases h2 : depth d 1 = 1
    · rw [if_pos h2, flat_tree (depth_flat h (Nat.le_of_eq h2))]
    · rw [if_neg h2, if_pos (by omega), hc]

theorem children_tree : ∀ {d : Dict} {ps : Path}, NoEmpty d → children d ps = tree d ps
  | .nil, _, _ => rfl
  | .leaf k v r, ps, h => by simp only [children, tree, children_tree (d := r) h]
  | .sub k d r, ps, h => by
    simp only [children, tree]
    rw [pick_eq h.2.1 (children_tree h.2.1), children_tree h.2.2]

theorem parseTree_eq {d : Dict} {n : Str} (h : NoEmpty d) : parseTree d n = tree d [n] := pick_eq h (children_tree h)

/-! ## Statements -/

/-- The statement for a value. -/
def leafStmt (k : Str) (v : Scalar) (ps : Path) (t : Ty) : Stmt :=
  .par t (ps ++ [var k]) (ps ++ [nsName]) k (match v with | .str _ => some (ps ++ [k ++ bufSuffix]) | _ => none)

def code : Dict → Path → List Stmt
  | .nil, _ => []
  | .leaf k v rest, ps => (match v.ty with | none => [] | some t => [leafStmt k v ps t]) ++ code rest ps
  | .sub k d rest, ps => .ns (ps ++ [var k, nsName]) (some (ps ++ [nsName])) k :: (code d (ps ++ [k]) ++ code rest ps)

theorem parStmt_eq {k : Str} {ps : Path} {v : Scalar} {s : Stmt} (h : parStmt k ps v = .ok s) :
    ∃ t, v.ty = some t ∧ s = leafStmt k v ps t := by
  cases v <;> simp [parStmt] at h <;> exact ⟨_, rfl, by rw [← h]; rfl⟩

theorem initCode_eq : ∀ {d : Dict} {ps : Path} {c : List Stmt}, initCode (tree d ps) = .ok c → c = code d ps ∧ Supported d
  | .nil, _, c, h => by
    simp only [tree, initCode] at h
    injection h with h
    exact ⟨h.symm, fun q hq => by cases hq⟩
  | .leaf k v r, ps, c, h => by
    simp only [tree, initCode, bind, Except.bind] at h
    cases hs : parStmt k ps v with
    | error e => rw [hs] at h; cases h
    | ok s =>
      rw [hs] at h
      dsimp only at h
      cases hr : initCode (tree r ps) with
      | error e => rw [hr] at h; cases h
      | ok b =>
        rw [hr] at h
        dsimp only [pure, Except.pure] at h
        injection h with h
        obtain ⟨t, ht, he⟩ := parStmt_eq hs
        obtain ⟨h1, h2⟩ := initCode_eq hr
        refine ⟨by rw [← h, h1, he]; simp [code, ht], fun q hq => ?_⟩
        cases hq with
        | here => cases ht
        | skipLeaf hq => exact h2 q hq
  | .sub k d r, ps, c, h => by
    simp only [tree, initCode, bind, Except.bind] at h
    cases hs : initCode (tree d (ps ++ [k])) with
    | error e => rw [hs] at h; cases h
    | ok s =>
      rw [hs] at h
      dsimp only at h
      cases hr : initCode (tree r ps) with
      | error e => rw [hr] at h; cases h
      | ok b =>
        rw [hr] at h
        dsimp only [pure, Except.pure] at h
        injection h with h
        obtain ⟨h1, h2⟩ := initCode_eq hs
        obtain ⟨h3, h4⟩ := initCode_eq hr
        refine ⟨by rw [← h, h1, h3]; rfl, fun q hq => ?_⟩
        cases hq with
        | skipSub hq => exact h4 q hq
        | deep hq => exact h2 _ hq

theorem initCode_ok : ∀ {d : Dict} {ps : Path}, Supported d → initCode (tree d ps) = .ok (code d ps)
  | .nil, _, _ => rfl
  | .leaf k v r, ps, h => by
    have hr := initCode_ok (d := r) (ps := ps) (fun q hq => h q (.skipLeaf hq))
    have hv : v ≠ .other := fun e => h [k] (by rw [e]; exact .here k _ r)
    simp only [tree, initCode, bind, Except.bind, hr]
    cases v <;> first | rfl | exact absurd rfl hv
  | .sub k d r, ps, h => by
    have hr := initCode_ok (d := r) (ps := ps) (fun q hq => h q (.skipSub hq))
    have hd := initCode_ok (d := d) (ps := ps ++ [k]) (fun q hq => h _ (.deep hq))
    simp only [tree, initCode, bind, Except.bind, hr, hd]
    rfl

theorem leaf_ne {d : Dict} {q : Path} {v : Scalar} (h : Leaf d q v) : q ≠ [] := by
  induction h with
  | here => simp
  | skipLeaf _ ih => exact ih
  | skipSub _ ih => exact ih
  | deep _ _ => simp

theorem sub_ne {d : Dict} {q : Path} (h : Sub d q) : q ≠ [] := by
  induction h with
  | here => simp
  | skipLeaf _ ih => exact ih
  | skipSub _ ih => exact ih
  | deep _ _ => simp

theorem cons_snoc {α : Type} {k : α} {q q' : List α} {x : α} (h : k :: q = q' ++ [x]) (hq : q ≠ []) :
    ∃ q'', q' = k :: q'' ∧ q = q'' ++ [x] := by
  cases q' with
  | nil => simp at h; exact absurd h.2 hq
  | cons a q'' =>
    simp only [List.cons_append, List.cons.injEq] at h
    exact ⟨q'', by rw [h.1], h.2⟩

/-! ### Which statements there are -/

theorem mem_code_par {t : Ty} {o n : Path} {id : Str} {b : Option Path} : ∀ {d : Dict} {ps : Path},
    Stmt.par t o n id b ∈ code d ps → ∃ q v, Leaf d (q ++ [id]) v ∧ v.ty = some t ∧ o = ps ++ q ++ [var id] ∧ n = ps ++ q ++ [nsName]
  | .nil, ps, h => by simp [code] at h
  | .leaf k v r, ps, h => by
    simp only [code, List.mem_append] at h
    rcases h with h | h
    · cases ht : v.ty with
      | none => rw [ht] at h; simp at h
      | some t' =>
        rw [ht] at h
        simp only [leafStmt, List.mem_singleton, Stmt.par.injEq] at h
        obtain ⟨rfl, rfl, rfl, rfl, _⟩ := h
        exact ⟨[], v, .here id v r, ht, by simp, by simp⟩
    · obtain ⟨q, w, h1, h2⟩ := mem_code_par h
      exact ⟨q, w, .skipLeaf h1, h2⟩
  | .sub k d r, ps, h => by
    simp only [code, List.mem_cons, List.mem_append, reduceCtorEq, false_or] at h
    rcases h with h | h
    · obtain ⟨q, w, h1, h2, h3, h4⟩ := mem_code_par h
      exact ⟨k :: q, w, .deep h1, h2, by rw [h3]; simp, by rw [h4]; simp⟩
    · obtain ⟨q, w, h1, h2⟩ := mem_code_par h
      exact ⟨q, w, .skipSub h1, h2⟩

theorem leaf_code {d : Dict} {p : Path} {v : Scalar} (h : Leaf d p v) : ∀ {ps q : Path} {k : Str} {t : Ty}, p = q ++ [k] → v.ty = some t →
    ∃ b, Stmt.par t (ps ++ q ++ [var k]) (ps ++ q ++ [nsName]) k b ∈ code d ps := by
  induction h with
  | here k v r =>
    intro ps q k' t hp ht
    have hq : q = [] ∧ k = k' := by
      cases q with
      | nil => simpa using hp
      | cons a q => simp at hp
    obtain ⟨rfl, rfl⟩ := hq
    simp only [code, ht, leafStmt, List.append_nil]
    exact ⟨_, List.mem_append_left _ (List.mem_singleton.mpr rfl)⟩
  | skipLeaf _ ih =>
    intro ps q k t hp ht
    obtain ⟨b, hb⟩ := ih (ps := ps) hp ht
    exact ⟨b, by simp only [code]; exact List.mem_append_right _ hb⟩
  | skipSub _ ih =>
    intro ps q k t hp ht
    obtain ⟨b, hb⟩ := ih (ps := ps) hp ht
    exact ⟨b, by simp only [code]; exact List.mem_cons_of_mem _ (List.mem_append_right _ hb)⟩
  | @deep k d r q v hl ih =>
    intro ps q' k' t hp ht
    obtain ⟨q'', rfl, h2⟩ := cons_snoc hp (leaf_ne hl)
    obtain ⟨b, hb⟩ := ih (ps := ps ++ [k]) h2 ht
    exact ⟨b, by simp only [code]; exact List.mem_cons_of_mem _ (List.mem_append_left _ (by simpa using hb))⟩

theorem mem_code_ns {o : Path} {p : Option Path} {id : Str} : ∀ {d : Dict} {ps : Path},
    Stmt.ns o p id ∈ code d ps → ∃ q, Sub d (q ++ [id]) ∧ o = ps ++ q ++ [var id, nsName] ∧ p = some (ps ++ q ++ [nsName])
  | .nil, ps, h => by simp [code] at h
  | .leaf k v r, ps, h => by
    simp only [code, List.mem_append] at h
    rcases h with h | h
    · cases ht : v.ty with
      | none => rw [ht] at h; simp at h
      | some t' => rw [ht] at h; simp [leafStmt] at h
    · obtain ⟨q, h1, h2⟩ := mem_code_ns h
      exact ⟨q, .skipLeaf h1, h2⟩
  | .sub k d r, ps, h => by
    simp only [code, List.mem_cons, List.mem_append, Stmt.ns.injEq] at h
    rcases h with ⟨rfl, rfl, rfl⟩ | h | h
    · exact ⟨[], .here id d r, by simp, by simp⟩
    · obtain ⟨q, h1, h2, h3⟩ := mem_code_ns h
      exact ⟨k :: q, .deep h1, by rw [h2]; simp, by rw [h3]; simp⟩
    · obtain ⟨q, h1, h2⟩ := mem_code_ns h
      exact ⟨q, .skipSub h1, h2⟩

theorem sub_code {d : Dict} {p : Path} (h : Sub d p) : ∀ {ps q : Path} {k : Str}, p = q ++ [k] →
    Stmt.ns (ps ++ q ++ [var k, nsName]) (some (ps ++ q ++ [nsName])) k ∈ code d ps := by
  induction h with
  | here k d r =>
    intro ps q k' hp
    have hq : q = [] ∧ k = k' := by
      cases q with
      | nil => simpa using hp
      | cons a q => simp at hp
    obtain ⟨rfl, rfl⟩ := hq
    simp [code]
  | skipLeaf _ ih =>
    intro ps q k hp
    simp only [code]; exact List.mem_append_right _ (ih hp)
  | skipSub _ ih =>
    intro ps q k hp
    simp only [code]; exact List.mem_cons_of_mem _ (List.mem_append_right _ (ih hp))
  | @deep k d r q hl ih =>
    intro ps q' k' hp
    obtain ⟨q'', rfl, h2⟩ := cons_snoc hp (sub_ne hl)
    have := ih (ps := ps ++ [k]) h2
    simp only [code]; exact List.mem_cons_of_mem _ (List.mem_append_left _ (by simpa using this))

/-! ### Members of the structure -/

theorem sub_members {d : Dict} {q : Path} (h : Sub d q) : ∀ {ps : Path},
    (ps ++ q, CTy.struct) ∈ members (tree d ps) ps ∧ (ps ++ q ++ [nsName], CTy.ns) ∈ members (tree d ps) ps := by
  induction h with
  | here k d r => intro ps; simp [tree, members]
  | skipLeaf _ ih =>
    intro ps
    simp only [tree, members]
    exact ⟨List.mem_cons_of_mem _ (List.mem_append_right _ ih.1), List.mem_cons_of_mem _ (List.mem_append_right _ ih.2)⟩
  | skipSub _ ih =>
    intro ps
    simp only [tree, members]
    exact ⟨List.mem_cons_of_mem _ (List.mem_cons_of_mem _ (List.mem_append_right _ ih.1)),
      List.mem_cons_of_mem _ (List.mem_cons_of_mem _ (List.mem_append_right _ ih.2))⟩
  | @deep k d r q hl ih =>
    intro ps
    simp only [tree, members]
    have := ih (ps := ps ++ [k])
    simp only [List.append_assoc, List.singleton_append, List.cons_append] at this ⊢
    exact ⟨List.mem_cons_of_mem _ (List.mem_cons_of_mem _ (List.mem_append_left _ this.1)),
      List.mem_cons_of_mem _ (List.mem_cons_of_mem _ (List.mem_append_left _ this.2))⟩

theorem leaf_members {d : Dict} {p : Path} {v : Scalar} (h : Leaf d p v) : ∀ {ps q : Path} {k : Str}, p = q ++ [k] →
    (ps ++ q ++ [var k], CTy.par) ∈ members (tree d ps) ps := by
  induction h with
  | here k v r =>
    intro ps q k' hp
    have hq : q = [] ∧ k = k' := by
      cases q with
      | nil => simpa using hp
      | cons a q => simp at hp
    obtain ⟨rfl, rfl⟩ := hq
    simp [tree, members]
  | skipLeaf _ ih =>
    intro ps q k hp
    simp only [tree, members]
    exact List.mem_cons_of_mem _ (List.mem_append_right _ (ih hp))
  | skipSub _ ih =>
    intro ps q k hp
    simp only [tree, members]
    exact List.mem_cons_of_mem _ (List.mem_cons_of_mem _ (List.mem_append_right _ (ih hp)))
  | @deep k d r q v hl ih =>
    intro ps q' k' hp
    obtain ⟨q'', rfl, h2⟩ := cons_snoc hp (leaf_ne hl)
    have := ih (ps := ps ++ [k]) h2
    simp only [tree, members]
    exact List.mem_cons_of_mem _ (List.mem_cons_of_mem _ (List.mem_append_left _ (by simpa using this)))

/-- Objects declared as namespaces and as parameters. -/
def nsObjs : List Stmt → List Path
  | [] => []
  | .ns o _ _ :: r => o :: nsObjs r
  | .par _ _ _ _ _ :: r => nsObjs r

def parObjs : List Stmt → List Path
  | [] => []
  | .ns _ _ _ :: r => parObjs r
  | .par _ o _ _ _ :: r => o :: parObjs r

theorem nsObjs_append : ∀ a b : List Stmt, nsObjs (a ++ b) = nsObjs a ++ nsObjs b
  | [], b => rfl
  | .ns o _ _ :: r, b => by simp [nsObjs, nsObjs_append r b]
  | .par _ _ _ _ _ :: r, b => by simp [nsObjs, nsObjs_append r b]

theorem parObjs_append : ∀ a b : List Stmt, parObjs (a ++ b) = parObjs a ++ parObjs b
  | [], b => rfl
  | .ns o _ _ :: r, b => by simp [parObjs, parObjs_append r b]
  | .par _ _ _ _ _ :: r, b => by simp [parObjs, parObjs_append r b]

theorem nsObjs_sublist : ∀ {d : Dict} {ps : Path}, (∀ q k, Sub d (q ++ [k]) → var k = k) →
    (nsObjs (code d ps)).Sublist ((members (tree d ps) ps).map (·.1))
  | .nil, ps, _ => .slnil
  | .leaf k v r, ps, h => by
    have ih := nsObjs_sublist (d := r) (ps := ps) (fun q k hq => h q k (.skipLeaf hq))
    simp only [code, tree, members, nsObjs_append, List.map_cons, List.map_append]
    have : nsObjs (match v.ty with | none => [] | some t => [leafStmt k v ps t]) = [] := by
      cases v.ty <;> rfl
    rw [this, List.nil_append]
    exact .cons _ (ih.trans (List.sublist_append_right _ _))
  | .sub k d r, ps, h => by
    have ih := nsObjs_sublist (d := r) (ps := ps) (fun q k hq => h q k (.skipSub hq))
    have ih' := nsObjs_sublist (d := d) (ps := ps ++ [k]) (fun q k' hq => h (k :: q) k' (.deep hq))
    have hk := h [] k (.here k d r)
    simp only [code, tree, members, nsObjs, nsObjs_append, List.map_cons, List.map_append, hk]
    exact .cons _ (.cons₂ _ (ih'.append ih))

theorem parObjs_sublist : ∀ {d : Dict} {ps : Path}, (parObjs (code d ps)).Sublist ((members (tree d ps) ps).map (·.1))
  | .nil, ps => .slnil
  | .leaf k v r, ps => by
    have ih := parObjs_sublist (d := r) (ps := ps)
    simp only [code, tree, members, parObjs_append, List.map_cons, List.map_append]
    cases v.ty with
    | none => exact .cons _ (ih.trans (List.sublist_append_right _ _))
    | some t => exact .cons₂ _ (ih.trans (List.sublist_append_right _ _))
  | .sub k d r, ps => by
    have ih := parObjs_sublist (d := r) (ps := ps)
    have ih' := parObjs_sublist (d := d) (ps := ps ++ [k])
    simp only [code, tree, members, parObjs, parObjs_append, List.map_cons, List.map_append]
    exact .cons _ (.cons _ (ih'.append ih))

/-! ### Order of the statements -/

/-- Namespaces are declared before they are used; names are C strings. -/
def Closed : List Path → List Stmt → Prop
  | _, [] => True
  | seen, .ns o p id :: r => (∀ x, p = some x → x ∈ seen) ∧ 0 ∉ id ∧ Closed (o :: seen) r
  | seen, .par _ _ n id _ :: r => n ∈ seen ∧ 0 ∉ id ∧ Closed seen r

theorem closed_mono : ∀ {c : List Stmt} {s s' : List Path}, (∀ x ∈ s, x ∈ s') → Closed s c → Closed s' c
  | [], _, _, _, _ => trivial
  | .ns o p id :: r, s, s', hs, h => ⟨fun x hx => hs x (h.1 x hx), h.2.1, closed_mono (fun x hx => by
      rcases List.mem_cons.mp hx with hx | hx
      · exact hx ▸ List.mem_cons_self
      · exact List.mem_cons_of_mem _ (hs x hx)) h.2.2⟩
  | .par _ _ n id _ :: r, s, s', hs, h => ⟨hs n h.1, h.2.1, closed_mono hs h.2.2⟩

theorem closed_append : ∀ {a b : List Stmt} {s : List Path}, Closed s a → Closed s b → Closed s (a ++ b)
  | [], _, _, _, hb => hb
  | .ns o p id :: r, b, s, ha, hb =>
    ⟨ha.1, ha.2.1, closed_append ha.2.2 (closed_mono (fun _ hx => List.mem_cons_of_mem _ hx) hb)⟩
  | .par _ _ _ _ _ :: r, b, s, ha, hb => ⟨ha.1, ha.2.1, closed_append ha.2.2 hb⟩

theorem closed_code : ∀ {d : Dict} {ps : Path} {s : List Path}, (∀ q k, Sub d (q ++ [k]) → var k = k ∧ 0 ∉ k) →
    (∀ q k v, Leaf d (q ++ [k]) v → 0 ∉ k) → ps ++ [nsName] ∈ s → Closed s (code d ps)
  | .nil, _, _, _, _, _ => trivial
  | .leaf k v r, ps, s, hs, hl, h => by
    have ih := closed_code (d := r) (ps := ps) (s := s) (fun q k hq => hs q k (.skipLeaf hq)) (fun q k v hq => hl q k v (.skipLeaf hq)) h
    simp only [code]
    apply closed_append _ ih
    cases v.ty with
    | none => exact trivial
    | some t => exact ⟨h, hl [] k v (.here k v r), trivial⟩
  | .sub k d r, ps, s, hs, hl, h => by
    have ih := closed_code (d := r) (ps := ps) (s := (ps ++ [var k, nsName]) :: s) (fun q k hq => hs q k (.skipSub hq))
      (fun q k v hq => hl q k v (.skipSub hq)) (List.mem_cons_of_mem _ h)
    have ih' := closed_code (d := d) (ps := ps ++ [k]) (s := (ps ++ [var k, nsName]) :: s) (fun q k' hq => hs (k :: q) k' (.deep hq))
      (fun q k' v hq => hl (k :: q) k' v (.deep hq)) (by rw [(hs [] k (.here k d r)).1]; simp)
    simp only [code]
    exact ⟨fun x hx => by injection hx with hx; exact hx ▸ h, (hs [] k (.here k d r)).2, closed_append ih' ih⟩

/-! ## The operations -/

theorem decl_ok (P : Prog) (t : Ty) (o n : Path) (id : Str) (b : Option Path) :
    ∃ dc, P.op (.par t o n id b) = .declPar (P.cell o) (P.cell n) id dc ∧ DeclOK dc ∧ dc.default = none := by
  cases t <;> exact ⟨_, rfl, trivial, rfl⟩

theorem nss_append : ∀ a b : List Op, nss (a ++ b) = nss a ++ nss b
  | [], b => rfl
  | .declNs _ _ _ :: a, b => by simp [nss, nss_append a b]
  | .declPar _ _ _ _ :: a, b => by simp [nss, nss_append a b]
  | .set _ _ :: a, b => by simp [nss, nss_append a b]
  | .get _ :: a, b => by simp [nss, nss_append a b]

theorem pars_append : ∀ a b : List Op, pars (a ++ b) = pars a ++ pars b
  | [], b => rfl
  | .declNs _ _ _ :: a, b => by simp [pars, pars_append a b]
  | .declPar _ _ _ _ :: a, b => by simp [pars, pars_append a b]
  | .set _ _ :: a, b => by simp [pars, pars_append a b]
  | .get _ :: a, b => by simp [pars, pars_append a b]

theorem proper_ops {P : Prog} : ∀ {c : List Stmt} {l : List Op} {seen : List Path}, Proper l → (∀ x, x ∈ nss l ↔ ∃ o ∈ seen, P.cell o = x) →
    (∀ o ∈ nsObjs c, P.cell o ∉ nss l) → (∀ o ∈ parObjs c, P.cell o ∉ pars l) → ((nsObjs c).map P.cell).Nodup →
    ((parObjs c).map P.cell).Nodup → Closed seen c → Proper ((c.map P.op).reverse ++ l)
  | [], l, seen, hp, _, _, _, _, _, _ => by simpa using hp
  | .ns o p id :: c, l, seen, hp, hseen, hns, hpar, hn1, hn2, hc => by
    simp only [List.map_cons, List.reverse_cons, List.append_assoc, List.singleton_append]
    simp only [nsObjs, List.map_cons, List.nodup_cons] at hn1
    apply proper_ops (seen := o :: seen)
    · refine ⟨hns o List.mem_cons_self, ?_, hc.2.1, hp⟩
      intro m hm
      cases p with
      | none => cases hm
      | some x =>
        injection hm with hm
        exact (hseen m).mpr ⟨x, hc.1 x rfl, hm⟩
    · intro x
      simp only [Prog.op, nss, List.mem_cons, hseen x]
      constructor
      · rintro (rfl | ⟨o', h1, h2⟩)
        · exact ⟨o, .inl rfl, rfl⟩
        · exact ⟨o', .inr h1, h2⟩
      · rintro ⟨o', rfl | h1, h2⟩
        · exact .inl h2.symm
        · exact .inr ⟨o', h1, h2⟩
    · intro o' ho'
      simp only [Prog.op, nss, List.mem_cons, not_or]
      exact ⟨fun e => hn1.1 (e ▸ List.mem_map_of_mem ho'), hns o' (List.mem_cons_of_mem _ ho')⟩
    · exact hpar
    · exact hn1.2
    · exact hn2
    · exact hc.2.2
  | .par t o n id b :: c, l, seen, hp, hseen, hns, hpar, hn1, hn2, hc => by
    simp only [List.map_cons, List.reverse_cons, List.append_assoc, List.singleton_append]
    simp only [parObjs, List.map_cons, List.nodup_cons] at hn2
    obtain ⟨dc, he, hok, _⟩ := decl_ok P t o n id b
    rw [he]
    apply proper_ops (seen := seen)
    · exact ⟨hpar o List.mem_cons_self, (hseen _).mpr ⟨n, hc.1, rfl⟩, hc.2.1, hok, hp⟩
    · exact hseen
    · exact hns
    · intro o' ho'
      simp only [pars, List.mem_cons, not_or]
      exact ⟨fun e => hn2.1 (e ▸ List.mem_map_of_mem ho'), hpar o' (List.mem_cons_of_mem _ ho')⟩
    · exact hn1
    · exact hn2.2
    · exact hc.2.2

/-! ## Declarations in a history -/

theorem mem_nss {l : List Op} {n : Nat} : n ∈ nss l ↔ ∃ p id, Op.declNs n p id ∈ l := by
  induction l with
  | nil => simp [nss]
  | cons op l ih =>
    cases op with
    | declNs m p id =>
      simp only [nss, List.mem_cons, ih, Op.declNs.injEq]
      constructor
      · rintro (rfl | ⟨p', id', h⟩)
        · exact ⟨p, id, .inl ⟨rfl, rfl, rfl⟩⟩
        · exact ⟨p', id', .inr h⟩
      · rintro ⟨p', id', ⟨rfl, _, _⟩ | h⟩
        · exact .inl rfl
        · exact .inr ⟨p', id', h⟩
    | declPar => simp [nss, ih]
    | set => simp [nss, ih]
    | get => simp [nss, ih]

theorem mem_pars {l : List Op} {p : Nat} : p ∈ pars l ↔ ∃ n id d, Op.declPar p n id d ∈ l := by
  induction l with
  | nil => simp [pars]
  | cons op l ih =>
    cases op with
    | declPar m n id d =>
      simp only [pars, List.mem_cons, ih, Op.declPar.injEq]
      constructor
      · rintro (rfl | ⟨p', id', d', h⟩)
        · exact ⟨n, id, d, .inl ⟨rfl, rfl, rfl, rfl⟩⟩
        · exact ⟨p', id', d', .inr h⟩
      · rintro ⟨p', id', d', ⟨rfl, _, _⟩ | h⟩
        · exact .inl rfl
        · exact .inr ⟨p', id', d', h⟩
    | declNs => simp [pars, ih]
    | set => simp [pars, ih]
    | get => simp [pars, ih]

theorem decl_ns : ∀ {l : List Op} {n : Nat} {p : Option Nat} {id : Str}, Proper l → Op.declNs n p id ∈ l →
    nsIdOf n l = id ∧ parentOf n l = p
  | [], _, _, _, _, h => by cases h
  | .declNs m p' id' :: l, n, p, id, hp, h => by
    simp only [nsIdOf, parentOf]
    rcases List.mem_cons.mp h with h | h
    · injection h with h1 h2 h3
      subst h1 h2 h3
      simp
    · have hne : m ≠ n := fun e => hp.1 (e ▸ mem_nss.mpr ⟨p, id, h⟩)
      rw [if_neg hne, if_neg hne]
      exact decl_ns hp.2.2.2 h
  | .declPar _ _ _ _ :: l, n, p, id, hp, h => decl_ns (l := l) hp.2.2.2.2 (by simpa using h)
  | .set _ _ :: l, n, p, id, hp, h => decl_ns (l := l) hp.2 (by simpa using h)
  | .get _ :: l, n, p, id, hp, h => decl_ns (l := l) hp.2 (by simpa using h)

theorem decl_par : ∀ {l : List Op} {p n : Nat} {id : Str} {d : Decl}, Proper l → Op.declPar p n id d ∈ l →
    parIdOf p l = id ∧ nsOf p l = n ∧ declOf p l = some d
  | [], _, _, _, _, _, h => by cases h
  | .declPar m n' id' d' :: l, p, n, id, d, hp, h => by
    simp only [parIdOf, nsOf, declOf]
    rcases List.mem_cons.mp h with h | h
    · injection h with h1 h2 h3 h4
      subst h1 h2 h3 h4
      simp
    · have hne : m ≠ p := fun e => hp.1 (e ▸ mem_pars.mpr ⟨n, id, d, h⟩)
      rw [if_neg hne, if_neg hne, if_neg hne]
      exact decl_par hp.2.2.2.2 h
  | .declNs _ _ _ :: l, p, n, id, d, hp, h => decl_par (l := l) hp.2.2.2 (by simpa using h)
  | .set _ _ :: l, p, n, id, d, hp, h => decl_par (l := l) hp.2 (by simpa using h)
  | .get _ :: l, p, n, id, d, hp, h => decl_par (l := l) hp.2 (by simpa using h)

end Verif.Config
