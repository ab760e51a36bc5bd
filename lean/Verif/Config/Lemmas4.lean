import Verif.Config.Load
import Verif.Param.Props

namespace Verif.Config

open Verif.Param
open HeapList

variable {c m : Dict} {P : Prog} {h h0 : Heap} {fuel : Nat}

/-! ## Lookup in the tree -/

theorem find_same {l : List Op} {h h' : Heap} (ht : Tree l h) (ht' : Tree l h') (hf : l.length ≤ fuel) {n : Nat} (hn : n ∈ nss l) {s : Str} (h0 : 0 ∉ s) :
    parFind fuel h n s = parFind fuel h' n s ∧ nsFind fuel h n s = nsFind fuel h' n s := by
  unfold parFind nsFind
  rw [parFindLoop_spec ht hf _ n s hn h0 (Nat.le_refl _), parFindLoop_spec ht' hf _ n s hn h0 (Nat.le_refl _),
    nsFindLoop_spec ht hf _ n s hn h0 (Nat.le_refl _), nsFindLoop_spec ht' hf _ n s hn h0 (Nat.le_refl _)]
  exact ⟨rfl, rfl⟩

/-- Lookup of parameters in a heap with the tree of a history. -/
theorem tree_parFind {l : List Op} (hp : Proper l) (hd : Distinct l) (ht : Tree l h) (hf : l.length ≤ fuel) {n p : Nat} (hn : n ∈ nss l)
    {path k : Str} {cs : List Str} (h0p : 0 ∉ path) (hc : components path = cs ++ [k]) :
    parFind fuel h n path = .ok (some p) ↔ k ≠ [] ∧ p ∈ pars l ∧ parIdOf p l = k ∧ AtPath l n (cs.filter (· ≠ [])) (nsOf p l) := by
  obtain ⟨h1, hr, hi⟩ := run_inv (h0 := h) hp hf
  rw [(find_same ht hi.tree hf hn h0p).1]
  exact parFind_iff hp hd hf hr hn h0p hc

theorem tree_nsFind {l : List Op} (hp : Proper l) (hd : Distinct l) (ht : Tree l h) (hf : l.length ≤ fuel) {n m : Nat} (hn : n ∈ nss l)
    {path : Str} (h0p : 0 ∉ path) :
    nsFind fuel h n path = .ok (some m) ↔ AtPath l n ((components path).filter (· ≠ [])) m := by
  obtain ⟨h1, hr, hi⟩ := run_inv (h0 := h) hp hf
  rw [(find_same ht hi.tree hf hn h0p).2]
  exact nsFind_iff hp hd hf hr hn h0p

/-- The parameter at a path below a mapping. -/
theorem par_at (hG : Good c P) {q0 q : Path} {k : Str} (hq0 : IsNs c q0) {p : Nat} :
    (p ∈ pars P.ops ∧ parIdOf p P.ops = k ∧ AtPath P.ops (P.cell (nsObj q0)) q (nsOf p P.ops)) ↔
      ∃ v, Leaf c (q0 ++ q ++ [k]) v ∧ p = P.cell (parObj (q0 ++ q ++ [k])) := by
  have hp := proper hG
  have trans : ∀ {a b d : Nat} {s t : List Str}, AtPath P.ops a s b → AtPath P.ops b t d → AtPath P.ops a (s ++ t) d := by
    intro a b d s t h1 h2
    induction h1 with
    | nil => exact h2
    | cons e1 e2 _ ih => exact .cons e1 e2 (ih h2)
  have hroot : AtPath P.ops (P.cell (nsObj [])) q0 (P.cell (nsObj q0)) := (atPath_iff hG).mpr ⟨hq0, rfl⟩
  constructor
  · rintro ⟨h1, h2, h3⟩
    obtain ⟨n, id, dc, hd⟩ := mem_pars.mp h1
    obtain ⟨e1, e2, _⟩ := decl_par hp hd
    obtain ⟨q', v, t, h4, _, h5, h6, _⟩ := par_decl_inv hG hd
    obtain ⟨_, h8⟩ := (atPath_iff hG).mp (trans hroot h3)
    rw [e2, h6] at h8
    have := nsCell_inj hG (leaf_prefix h4 rfl) h8
    rw [this] at h4 h5
    have hk : id = k := e1.symm.trans h2
    rw [hk] at h4 h5
    exact ⟨v, h4, h5⟩
  · rintro ⟨v, h1, rfl⟩
    have ht : ∃ t, v.ty = some t := by
      cases v with
      | other => exact absurd h1 (hG.supported _)
      | _ => exact ⟨_, rfl⟩
    obtain ⟨t, ht⟩ := ht
    obtain ⟨dc, hd, _⟩ := par_decl hG h1 ht
    obtain ⟨e1, e2, _⟩ := decl_par hp hd
    refine ⟨par_mem hG h1, e1, ?_⟩
    rw [e2]
    have hns : AtPath P.ops (P.cell (nsObj [])) (q0 ++ q) (P.cell (nsObj (q0 ++ q))) := (atPath_iff hG).mpr ⟨leaf_prefix h1 rfl, rfl⟩
    -- the part below `q0`
    have split : ∀ {a d : Nat} {s t : List Str}, AtPath P.ops a (s ++ t) d → ∃ b, AtPath P.ops a s b ∧ AtPath P.ops b t d := by
      intro a d s
      induction s generalizing a with
      | nil => intro t h; exact ⟨a, .nil a, h⟩
      | cons x s ih =>
        intro t h
        generalize hx : x :: s ++ t = xs at h
        cases h with
        | nil => simp at hx
        | cons e1 e2 e3 =>
          rw [List.cons_append] at hx
          injection hx with hx1 hx2
          subst hx2
          obtain ⟨b, b1, b2⟩ := ih e3
          rw [hx1]
          exact ⟨b, .cons e1 e2 b1, b2⟩
    obtain ⟨b, b1, b2⟩ := split hns
    obtain ⟨_, b3⟩ := (atPath_iff hG).mp b1
    rw [b3] at b2
    exact b2

/-- Lookup of a parameter from the namespace of a mapping. -/
theorem find_par_ns (hG : Good c P) (ht : Tree P.ops h) (hf : P.ops.length ≤ fuel) {q0 : Path} (hq0 : IsNs c q0) {path k : Str} {cs : List Str}
    (h0p : 0 ∉ path) (hc : components path = cs ++ [k]) {p : Nat} :
    parFind fuel h (P.cell (nsObj q0)) path = .ok (some p) ↔
      ∃ v, Leaf c (q0 ++ cs.filter (· ≠ []) ++ [k]) v ∧ p = P.cell (parObj (q0 ++ cs.filter (· ≠ []) ++ [k])) := by
  rw [tree_parFind (proper hG) (distinct hG) ht hf (ns_mem hG hq0) h0p hc]
  constructor
  · rintro ⟨_, h1, h2, h3⟩
    exact (par_at hG hq0).mp ⟨h1, h2, h3⟩
  · intro hv
    obtain ⟨h1, h2, h3⟩ := (par_at hG hq0).mpr hv
    obtain ⟨v, hv, _⟩ := hv
    exact ⟨(ident_ok (hG.leaf_ident hv)).ne, h1, h2, h3⟩

/-- Lookup of a namespace from the namespace of a mapping. -/
theorem find_ns_ns (hG : Good c P) (ht : Tree P.ops h) (hf : P.ops.length ≤ fuel) {q0 : Path} (hq0 : IsNs c q0) {path : Str} (h0p : 0 ∉ path) {n : Nat} :
    nsFind fuel h (P.cell (nsObj q0)) path = .ok (some n) ↔
      IsNs c (q0 ++ (components path).filter (· ≠ [])) ∧ n = P.cell (nsObj (q0 ++ (components path).filter (· ≠ []))) := by
  rw [tree_nsFind (proper hG) (distinct hG) ht hf (ns_mem hG hq0) h0p]
  have hroot : AtPath P.ops (P.cell (nsObj [])) q0 (P.cell (nsObj q0)) := (atPath_iff hG).mpr ⟨hq0, rfl⟩
  rw [← atPath_iff hG]
  generalize (components path).filter (· ≠ []) = q
  constructor
  · intro h1
    have trans : ∀ {a b d : Nat} {s t : List Str}, AtPath P.ops a s b → AtPath P.ops b t d → AtPath P.ops a (s ++ t) d := by
      intro a b d s t h1 h2
      induction h1 with
      | nil => exact h2
      | cons e1 e2 _ ih => exact .cons e1 e2 (ih h2)
    exact trans hroot h1
  · intro h1
    have split : ∀ {a d : Nat} {s t : List Str}, AtPath P.ops a (s ++ t) d → ∃ b, AtPath P.ops a s b ∧ AtPath P.ops b t d := by
      intro a d s
      induction s generalizing a with
      | nil => intro t h; exact ⟨a, .nil a, h⟩
      | cons x s ih =>
        intro t h
        generalize hx : x :: s ++ t = xs at h
        cases h with
        | nil => simp at hx
        | cons e1 e2 e3 =>
          rw [List.cons_append] at hx
          injection hx with hx1 hx2
          subst hx2
          obtain ⟨b, b1, b2⟩ := ih e3
          rw [hx1]
          exact ⟨b, .cons e1 e2 b1, b2⟩
    obtain ⟨b, b1, b2⟩ := split h1
    obtain ⟨_, b3⟩ := (atPath_iff hG).mp b1
    rw [b3] at b2
    exact b2

/-! ## Lookup from `global_config` and `master_config` -/

theorem getSub_root (hG : Good (whole m) P) (ht : Tree P.ops h) (hf : P.ops.length ≤ fuel) {q : Str} (hq : q ≠ []) (h0 : 0 ∉ q) :
    getSub fuel h (P.cell (nsObj [])) q = .ok (if q = masterName then some (P.cell (nsObj [masterName])) else none) := by
  rw [getSub_spec ht (root_mem hG) h0 hq hf, subs_root hG]
  have hid : nsIdOf (P.cell (nsObj [masterName])) P.ops = masterName :=
    (decl_ns (proper hG) (ns_decl hG (q := []) (k := masterName) (master_sub m))).1
  congr 1
  by_cases h2 : q = masterName
  · rw [if_pos h2, List.find?_cons_of_pos (by simp [hid, h2])]
  · rw [if_neg h2, List.find?_cons_of_neg (by simpa [hid] using fun e => h2 e.symm), List.find?_nil]

theorem par_empty {n : Nat} (h1 : h.sub n = none) (h2 : h.plist n = none) : ∀ (f : Nat) (s : Str), s.length ≤ f → parFindLoop fuel h f (some n) s = .ok none
  | f, s, hl => by
    have hfl : ∀ (next : Nat → Option Nat) (ident : Nat → Str) (q : Str), findLoop next ident q fuel none = .ok none := by
      intro next ident q; cases fuel <;> rfl
    unfold parFindLoop
    dsimp only
    by_cases hk : idSplit s < s.length
    · rw [if_pos hk]
      cases f with
      | zero => omega
      | succ f =>
        dsimp only
        by_cases hq : s.take (idSplit s) = []
        · rw [hq]
          simp only [getSub, List.length_nil, if_true, bind, Except.bind]
          exact par_empty h1 h2 f _ (by rw [List.length_drop]; omega)
        · unfold getSub
          rw [if_neg (by simpa using hq), h1, hfl]
          simp only [bind, Except.bind]
          cases f <;> rfl
    · rw [if_neg hk]
      unfold getPar
      rw [h2, hfl]
      split <;> rfl

theorem par_global (hG : Good (whole m) P) (ht : Tree P.ops h) (hx : Extra P h) (hf : P.ops.length ≤ fuel) (hf2 : 2 ≤ fuel) :
    ∀ (f : Nat) (s : Str), 0 ∉ s → s.length ≤ f → parFindLoop fuel h f (some P.global) s = parFindLoop fuel h f (some (P.cell (nsObj []))) s
  | f, s, h0, hl => by
    unfold parFindLoop
    dsimp only
    by_cases hk : idSplit s < s.length
    · rw [if_pos hk, if_pos hk]
      cases f with
      | zero => omega
      | succ f =>
        dsimp only
        have hlen : (s.drop (idSplit s + 1)).length ≤ f := by rw [List.length_drop]; omega
        by_cases hq : s.take (idSplit s) = []
        · rw [hq]
          simp only [getSub, List.length_nil, if_true, bind, Except.bind]
          exact par_global hG ht hx hf hf2 f _ (fun h => h0 (List.mem_of_mem_drop h)) hlen
        · have h0' : 0 ∉ s.take (idSplit s) := fun h => h0 (List.mem_of_mem_take h)
          have hsame : Msgpack.Same P.ops P.ops := ⟨rfl, rfl, fun _ => rfl, fun _ => rfl, fun _ => rfl, fun _ => rfl, fun _ => rfl, fun _ => rfl, fun _ d hd => ⟨d, hd, rfl⟩⟩
          rw [getSub_global hG hsame ht hx hf2 hq h0', getSub_root hG ht hf hq h0']
          simp only [bind, Except.bind]
          by_cases ha : s.take (idSplit s) = str "actuator"
          · rw [if_pos ha, if_neg (by rw [ha]; decide), par_empty hx.subA hx.plistA f _ hlen]
            cases f <;> rfl
          · rw [if_neg ha]
    · rw [if_neg hk, if_neg hk]
      unfold getPar
      rw [hx.plistG]
      have hpl := ht.plist _ (root_mem hG)
      rw [parsIn_root hG] at hpl
      rw [show h.plist (P.cell (nsObj [])) = none from hpl]

theorem ops_two (hG : Good (whole m) P) : 2 ≤ P.ops.length := by
  have h1 := root_decl hG
  have h2 := ns_decl hG (q := []) (k := masterName) (master_sub m)
  have hne : Op.declNs (P.cell (nsObj [])) none [] ≠ Op.declNs (P.cell (nsObj ([] ++ [masterName]))) (some (P.cell (nsObj []))) masterName := by simp
  match hl : P.ops with
  | [] => rw [hl] at h1; cases h1
  | [x] =>
    rw [hl] at h1 h2
    rw [List.mem_singleton] at h1 h2
    exact absurd (h1.trans h2.symm) hne
  | _ :: _ :: _ => simp

/-- Lookup from `global_config` after `config_init`. -/
theorem global_find (hG : Good (whole m) P) (ht : Tree P.ops h) (hx : Extra P h) (hf : P.ops.length ≤ fuel) {path k : Str} {cs : List Str}
    (h0p : 0 ∉ path) (hc : components path = cs ++ [k]) {p : Nat} :
    parFind fuel h P.global path = .ok (some p) ↔
      ∃ v, Leaf (whole m) (cs.filter (· ≠ []) ++ [k]) v ∧ p = P.cell (parObj (cs.filter (· ≠ []) ++ [k])) := by
  have h1 : parFind fuel h P.global path = parFind fuel h (P.cell (nsObj [])) path :=
    par_global hG ht hx hf (Nat.le_trans (ops_two hG) hf) _ _ h0p (Nat.le_refl _)
  rw [h1, find_par_ns hG ht hf (.inl rfl) h0p hc]
  simp only [List.nil_append]

theorem leaf_whole {m : Dict} {q : Path} {v : Scalar} : Leaf (whole m) (masterName :: q) v ↔ Leaf m q v := by
  constructor
  · intro h
    cases h with
    | skipSub h => cases h
    | deep h => exact h
  · exact .deep

/-- Lookup from `master_config`. -/
theorem master_find (hG : Good (whole m) P) (ht : Tree P.ops h) (hx : Extra P h) (hf : P.ops.length ≤ fuel) {path k : Str} {cs : List Str}
    (h0p : 0 ∉ path) (hc : components path = cs ++ [k]) {p : Nat} :
    parFind fuel h P.masterCfg path = .ok (some p) ↔
      ∃ v, Leaf m (cs.filter (· ≠ []) ++ [k]) v ∧ p = P.cell (parObj (masterName :: (cs.filter (· ≠ []) ++ [k]))) := by
  have h1 : parFind fuel h P.masterCfg path = parFind fuel h (P.cell (nsObj [masterName])) path := by
    apply par_copy (g := P.masterCfg) (n := P.cell (nsObj [masterName])) _ hx.plistM _ _ h0p (Nat.le_refl _)
    intro q hq _
    unfold getSub
    rw [hx.subM]
    rw [if_neg (by simpa using hq), if_neg (by simpa using hq)]
  rw [h1, find_par_ns hG ht hf (.inr (master_sub m)) h0p hc]
  simp only [List.cons_append, List.nil_append, leaf_whole]

/-! ## A place for every value -/

/-- The values below the keys `q0` with their parameters. -/
def targets (P : Prog) : Dict → Path → List (Nat × AVal)
  | .nil, _ => []
  | .leaf k v r, q0 => (match v.value with | some w => [(P.cell (parObj (q0 ++ [k])), w)] | none => []) ++ targets P r q0
  | .sub k d r, q0 => targets P d (q0 ++ [k]) ++ targets P r q0

theorem mem_targets {d : Dict} {q : Path} {v : Scalar} {w : AVal} (hl : Leaf d q v) (hw : v.value = some w) : ∀ q0, (P.cell (parObj (q0 ++ q)), w) ∈ targets P d q0 := by
  induction hl with
  | here k v r => intro q0; simp [targets, hw]
  | skipLeaf _ ih => intro q0; exact List.mem_append_right _ (ih hw q0)
  | skipSub _ ih => intro q0; exact List.mem_append_right _ (ih hw q0)
  | @deep k d r q v _ ih =>
    intro q0
    have := ih hw (q0 ++ [k])
    simp only [List.append_assoc, List.cons_append, List.nil_append] at this
    exact List.mem_append_left _ this

theorem targets_mem : ∀ {d : Dict} {q0 : Path} {t : Nat × AVal}, t ∈ targets P d q0 → ∃ q v, Leaf d q v ∧ v.value = some t.2 ∧ t.1 = P.cell (parObj (q0 ++ q))
  | .nil, q0, t, h => by cases h
  | .leaf k v r, q0, t, h => by
    rcases List.mem_append.mp h with h | h
    · cases hv : v.value with
      | none => rw [hv] at h; cases h
      | some w =>
        rw [hv] at h
        rw [List.mem_singleton.mp h]
        exact ⟨_, _, .here k v r, hv, rfl⟩
    · obtain ⟨q, v', h1, h2, h3⟩ := targets_mem h
      exact ⟨q, v', .skipLeaf h1, h2, h3⟩
  | .sub k d r, q0, t, h => by
    rcases List.mem_append.mp h with h | h
    · obtain ⟨q, v', h1, h2, h3⟩ := targets_mem h
      exact ⟨k :: q, v', .deep h1, h2, by rw [h3]; simp⟩
    · obtain ⟨q, v', h1, h2, h3⟩ := targets_mem h
      exact ⟨q, v', .skipSub h1, h2, h3⟩

theorem targets_fst : ∀ (d : Dict) (q0 : Path), (targets P d q0).map (·.1) = (parObjs (code d (configName :: q0))).map P.cell
  | .nil, q0 => rfl
  | .leaf k v r, q0 => by
    simp only [targets, code, List.map_append, parObjs_append, targets_fst r q0]
    congr 1
    cases v <;> simp [Scalar.value, Scalar.ty, leafStmt, parObjs, parObj_snoc]
  | .sub k d r, q0 => by
    simp only [targets, code, List.map_append, parObjs, parObjs_append, targets_fst r q0, targets_fst d, List.cons_append]

theorem targets_nodup (hG : Good c P) : ((targets P c []).map (·.1)).Nodup := by
  rw [targets_fst]
  have := map_cell_nodup hG (code_par_objs hG)
  rw [hG.stmts] at this
  exact this

/-- The type of the parameter of a value. -/
theorem hasTy (hG : Good c P) (hi : Inv P.ops h) {q : Path} {v : Scalar} {t : Ty} (hl : Leaf c q v) (ht : v.ty = some t) : HasTy t (h.val (P.cell (parObj q))) := by
  obtain ⟨q', k, rfl⟩ := (snoc_cases q).resolve_left (leaf_ne hl)
  obtain ⟨dc, hd, he⟩ := par_decl hG hl ht
  obtain ⟨_, _, e3⟩ := decl_par (proper hG) hd
  have hv := hi.val _ dc e3
  cases t <;> simp only [Prog.op, Op.declPar.injEq] at he
  all_goals
    obtain ⟨_, _, _, rfl⟩ := he
    generalize h.val (P.cell (parObj (q' ++ [k]))) = x at hv
    cases x <;> simp_all [valOK, HasTy]

theorem sound (hG : Good c P) (hi : Inv P.ops h) (hf : P.ops.length ≤ fuel) {q : Path} {v : Scalar} (hl : Leaf c q v) : Sound fuel h (P.cell (parObj q)) := by
  have hp := proper hG
  have hm := par_mem hG hl
  constructor
  · have hns : nsOf (P.cell (parObj q)) P.ops ∈ nss P.ops := by
      obtain ⟨q', k, rfl⟩ := (snoc_cases q).resolve_left (leaf_ne hl)
      have := (par_at hG (q0 := []) (q := q') (k := k) (.inl rfl)).mpr ⟨v, hl, rfl⟩
      obtain ⟨e1, e2⟩ := (atPath_iff hG).mp this.2.2
      simp only [List.nil_append] at e2
      rw [e2]
      exact ns_mem hG e1
    refine ⟨chain (nsOf (P.cell (parObj q)) P.ops) P.ops, ?_, Nat.le_trans (chain_length _ _) hf⟩
    rw [hi.tree.parNs _ hm]
    exact hi.tree.parent _ hns
  · intro hc
    rw [hi.changed _ hm, (changed_decls (ops_decls P) _).1] at hc
    cases hc

theorem place (hG : Good (whole m) P) (hi : Inv P.ops h) (hf : P.ops.length ≤ fuel) (hfit : ∀ q v, Leaf (whole m) q v → v.fits) :
    ∀ (d : Dict) (q0 : Path), IsNs (whole m) q0 → (∀ q v, Leaf d q v → Leaf (whole m) (q0 ++ q) v) → (∀ q, Sub d q → Sub (whole m) (q0 ++ q)) →
      Place fuel h (P.cell (nsObj q0)) d (targets P d q0)
  | .nil, q0, _, _, _ => .nil _
  | .leaf k v r, q0, hq, h1, h2 => by
    have hl := h1 _ _ (.here k v r)
    have hfv := hfit _ _ hl
    have hname := ident_ok (hG.leaf_ident hl)
    have hval : ∃ w, v.value = some w := by
      cases v with
      | other => exact hfv.elim
      | _ => exact ⟨_, rfl⟩
    obtain ⟨w, hw⟩ := hval
    simp only [targets, hw]
    refine .leaf ?_ hw hfv (sound hG hi hf hl) ?_ (place hG hi hf hfit r q0 hq (fun q v h => h1 q v (.skipLeaf h)) (fun q h => h2 q (.skipLeaf h)))
    · have := (find_par_ns hG hi.tree hf hq (path := k) (cs := []) hname.nul (by rw [components_single hname.slash]; rfl) (p := P.cell (parObj (q0 ++ [k])))).mpr
        ⟨v, by simpa using hl, by simp⟩
      exact this
    · cases v with
      | other => exact hfv.elim
      | bool b => injection hw with hw; subst hw; have := hasTy hG hi hl rfl; revert this; cases h.val (P.cell (parObj (q0 ++ [k]))) <;> simp [HasTy, Holds]
      | int b => injection hw with hw; subst hw; have := hasTy hG hi hl rfl; revert this; cases h.val (P.cell (parObj (q0 ++ [k]))) <;> simp [HasTy, Holds]
      | float b => injection hw with hw; subst hw; have := hasTy hG hi hl rfl; revert this; cases h.val (P.cell (parObj (q0 ++ [k]))) <;> simp [HasTy, Holds]
      | str b =>
        injection hw with hw; subst hw
        have := hasTy hG hi hl rfl
        have hb : b.length < 16 := hfv
        revert this
        cases h.val (P.cell (parObj (q0 ++ [k]))) <;> simp [HasTy, Holds]
        intro h16; omega
  | .sub k d r, q0, hq, h1, h2 => by
    have hs := h2 _ (.here k d r)
    have hname := hG.sub_name hs
    refine .sub (n' := P.cell (nsObj (q0 ++ [k]))) ?_ (place hG hi hf hfit d (q0 ++ [k]) (.inr hs) ?_ ?_)
      (place hG hi hf hfit r q0 hq (fun q v h => h1 q v (.skipSub h)) (fun q h => h2 q (.skipSub h)))
    · have hcomp : (components k).filter (· ≠ []) = [k] := by
        rw [components_single hname.slash]; simp [hname.ne]
      have := (find_ns_ns hG hi.tree hf hq (path := k) hname.nul (n := P.cell (nsObj (q0 ++ [k])))).mpr (by rw [hcomp]; exact ⟨.inr hs, rfl⟩)
      exact this
    · intro q v h
      have := h1 _ _ (.deep h)
      simpa using this
    · intro q h
      have := h2 _ (.deep h)
      simpa using this

theorem place_global (hG : Good (whole m) P) (hi : Inv P.ops h) (hx : Extra P h) (hf : P.ops.length ≤ fuel) (hfit : ∀ q v, Leaf m q v → v.fits) :
    Place fuel h P.global (whole m) (targets P (whole m) []) := by
  have hfit' : ∀ q v, Leaf (whole m) q v → v.fits := by
    intro q v h
    cases h with
    | skipSub h => cases h
    | deep h => exact hfit _ _ h
  have hpl := place hG hi hf hfit' m [masterName] (.inr (master_sub m)) (fun _ _ h => .deep h) (fun _ h => .deep h)
  refine .sub (ts := targets P m [masterName]) (ts' := []) (n' := P.cell (nsObj [masterName])) ?_ hpl (.nil _)
  have hsame : Msgpack.Same P.ops P.ops := ⟨rfl, rfl, fun _ => rfl, fun _ => rfl, fun _ => rfl, fun _ => rfl, fun _ => rfl, fun _ => rfl, fun _ d hd => ⟨d, hd, rfl⟩⟩
  have key : ∀ n, getSub fuel h n masterName = .ok (some (P.cell (nsObj [masterName]))) →
      nsFindLoop fuel h masterName.length (some n) masterName = .ok (some (P.cell (nsObj [masterName]))) := by
    intro n hn
    have hm : masterName = 109 :: (str "aster") := by decide
    have hk : idSplit masterName = masterName.length := by decide
    have : nsFindLoop fuel h masterName.length (some n) masterName = (getSub fuel h n (masterName.take (idSplit masterName)) >>= fun x =>
        nsFindLoop fuel h 5 x (masterName.drop (idSplit masterName + 1))) := by
      conv_lhs => rw [show masterName.length = 5 + 1 from by decide]
      rw [hm]; rfl
    rw [this, hk, List.take_length, hn]
    rw [show masterName.drop (masterName.length + 1) = [] from by decide]
    rfl
  have hg := key P.global (by
    rw [getSub_global hG hsame hi.tree hx (Nat.le_trans (ops_two hG) hf) (by decide) (by decide), if_neg (by decide), if_pos rfl])
  exact hg

end Verif.Config
