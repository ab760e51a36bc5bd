import Verif.Config.Lemmas2
import Verif.ParamServer.Lemmas

namespace Verif.Config

open Verif.Param
open HeapList

/-! ## Cells outside the history -/

theorem isList_congr {f g : Nat → Option Nat} : ∀ {l : List Nat} {p : Option Nat}, (∀ x ∈ l, g x = f x) → IsList f p l → IsList g p l
  | [], _, _, h => h
  | x :: l, p, he, h => ⟨h.1, by
    rw [he x List.mem_cons_self]
    exact isList_congr (fun y hy => he y (List.mem_cons_of_mem _ hy)) h.2⟩

/-- The invariant only speaks about declared cells. -/
theorem inv_congr {l : List Op} {h h' : Heap} (hi : Inv l h) (h1 : ∀ n ∈ nss l, h'.nsId n = h.nsId n ∧ h'.cnt n = h.cnt n ∧
      h'.parent n = h.parent n ∧ h'.sub n = h.sub n ∧ h'.nsNext n = h.nsNext n ∧ h'.plist n = h.plist n)
    (h2 : h'.parId = h.parId) (h3 : h'.parNs = h.parNs) (h4 : h'.parNext = h.parNext) (h5 : h'.changed = h.changed)
    (h6 : h'.defined = h.defined) (h7 : h'.val = h.val) : Inv l h' := by
  constructor
  · constructor
    · intro n hn; rw [(h1 n hn).1]; exact hi.tree.nsId n hn
    · intro n hn
      refine isList_congr (fun x hx => (h1 x (chain_nss hx)).2.2.1) (hi.tree.parent n hn)
    · intro n hn
      rw [(h1 n hn).2.2.2.1]
      exact isList_congr (fun x hx => (h1 x (subs_nss hx)).2.2.2.2.1) (hi.tree.subs n hn)
    · intro n hn
      rw [(h1 n hn).2.2.2.2.2, h4]
      exact hi.tree.plist n hn
    · intro p hp; rw [h2]; exact hi.tree.parId p hp
    · intro p hp; rw [h3]; exact hi.tree.parNs p hp
  · intro p hp; rw [h5]; exact hi.changed p hp
  · intro p hp; rw [h6]; exact hi.defined p hp
  · intro p d hd; rw [h7]; exact hi.val p d hd
  · intro n hn; rw [(h1 n hn).2.1]; exact hi.cnt n hn

/-! ## After config_init -/

variable {c m : Dict} {P : Prog} {h h0 : Heap} {fuel : Nat}

/-- The namespaces of config.c next to the tree. -/
structure Extra (P : Prog) (h : Heap) : Prop where
  subG : IsList h.nsNext (h.sub P.global) [P.actuator, P.cell (nsObj [masterName])]
  plistG : h.plist P.global = none
  idA : h.nsId P.actuator = str "actuator"
  subA : h.sub P.actuator = none
  plistA : h.plist P.actuator = none
  subM : h.sub P.masterCfg = h.sub (P.cell (nsObj [masterName]))
  plistM : h.plist P.masterCfg = h.plist (P.cell (nsObj [masterName]))
  cntG : h.cnt P.global = 0
  cntM : h.cnt P.masterCfg = 0

theorem cell_ops_lt (hG : Good c P) {n : Nat} (hn : n ∈ nss P.ops) : n < P.members.length := by
  obtain ⟨q, hq, rfl⟩ := mem_ns hG hn
  exact cell_lt (mem_fst (nsObj_mem hG hq))

theorem single {x : Nat} : ∀ {l : List Nat}, l.Nodup → x ∈ l → (∀ y ∈ l, y = x) → l = [x]
  | [], _, h, _ => by cases h
  | [y], _, h, ha => by rw [ha y List.mem_cons_self]
  | y :: z :: l, hn, _, ha => by
    have h1 := ha y List.mem_cons_self
    have h2 := ha z (List.mem_cons_of_mem _ List.mem_cons_self)
    subst h1
    rw [h2] at hn
    simp at hn

theorem master_sub (m : Dict) : Sub (whole m) [masterName] := .here _ _ _

theorem subs_root (hG : Good (whole m) P) : subs (P.cell (nsObj [])) P.ops = [P.cell (nsObj [masterName])] := by
  have hp := proper hG
  apply single ((ParamServer.subs_sublist _ _).nodup (ParamServer.nss_nodup hp))
  · rw [mem_subs hp]
    have hd := ns_decl hG (q := []) (k := masterName) (master_sub m)
    exact ⟨mem_nss.mpr ⟨_, _, hd⟩, (decl_ns hp hd).2⟩
  · intro y hy
    obtain ⟨h1, h2⟩ := (mem_subs hp).mp hy
    obtain ⟨p, id, hd⟩ := mem_nss.mp h1
    rw [(decl_ns hp hd).2] at h2
    rcases ns_decl_inv hG hd with ⟨_, h3, _⟩ | ⟨q, h3, h4, h5⟩
    · rw [h3] at h2; cases h2
    · rw [h5] at h2
      injection h2 with h2
      have := nsCell_inj hG (sub_prefix h3 rfl) h2
      subst this
      rw [h4]
      cases h3 with
      | here => rfl
      | skipSub h => cases h
      | deep h => exact absurd rfl (sub_ne h)

theorem parsIn_root (hG : Good (whole m) P) : parsIn (P.cell (nsObj [])) P.ops = [] := by
  have hp := proper hG
  apply List.eq_nil_iff_forall_not_mem.mpr
  intro p hm
  obtain ⟨h1, h2⟩ := (mem_parsIn hp).mp hm
  obtain ⟨n, id, dc, hd⟩ := mem_pars.mp h1
  rw [(decl_par hp hd).2.1] at h2
  obtain ⟨q, v, t, h3, _, _, h4, _⟩ := par_decl_inv hG hd
  rw [h4] at h2
  have := nsCell_inj hG (leaf_prefix h3 rfl) h2
  subst this
  cases h3 with
  | skipSub h => cases h
  | deep h => exact absurd rfl (leaf_ne h)

theorem count_zero {l : List Op} (hv : ∀ p, changedOf p l = false) (n : Nat) : count l n = 0 := by
  unfold count
  apply List.countP_eq_zero.mpr
  intro p _
  simp [hv p]

theorem changed_decls : ∀ {l : List Op}, (∀ op ∈ l, (∃ n p id, op = .declNs n p id) ∨ ∃ p n id d, op = .declPar p n id d ∧ d.default = none) →
    ∀ p, changedOf p l = false ∧ valueOf p l = none
  | [], _, _ => ⟨rfl, rfl⟩
  | op :: l, h, p => by
    have ih := changed_decls (l := l) (fun o ho => h o (List.mem_cons_of_mem _ ho)) p
    rcases h op List.mem_cons_self with ⟨n, q, id, rfl⟩ | ⟨q, n, id, d, rfl, hd⟩
    · exact ih
    · simp only [changedOf, valueOf, hd]
      by_cases hq : q = p <;> simp [hq, ih]

theorem ops_decls (P : Prog) : ∀ op ∈ P.ops, (∃ n p id, op = .declNs n p id) ∨ ∃ p n id d, op = .declPar p n id d ∧ d.default = none := by
  intro op h
  simp only [Prog.ops, List.mem_reverse, List.mem_map] at h
  obtain ⟨s, _, rfl⟩ := h
  cases s with
  | ns o p id => exact .inl ⟨_, _, _, rfl⟩
  | par t o n id b =>
    obtain ⟨dc, h1, _, h3⟩ := decl_ok P t o n id b
    exact .inr ⟨_, _, _, _, h1, h3⟩

theorem configInit_spec (hG : Good (whole m) P) (hf : P.ops.length ≤ fuel) : ∃ h, configInit fuel h0 P = .ok h ∧ Inv P.ops h ∧ Extra P h := by
  obtain ⟨h1, hr, hi⟩ := run_inv (h0 := h0) (proper hG) hf
  let h2 := copyNs h1 (P.cell (nsObj [])) P.global
  let h3 := copyNs h2 (P.cell (nsObj [masterName])) P.masterCfg
  let h4 := nsDeclare h3 P.actuator (some P.global) (str "actuator")
  have hrun : configInit fuel h0 P = .ok h4 := by
    show (run fuel h0 P.ops >>= fun h => _) = _
    rw [hr]; rfl
  have hM : P.cell (nsObj [masterName]) < P.members.length := cell_lt (mem_fst (nsObj_mem hG (.inr (master_sub m))))
  have hR : P.cell (nsObj []) < P.members.length := cell_lt (mem_fst (nsObj_mem hG (.inl rfl)))
  have low : ∀ n, n < P.members.length → h4.nsId n = h1.nsId n ∧ h4.cnt n = h1.cnt n ∧ h4.parent n = h1.parent n ∧
      h4.sub n = h1.sub n ∧ h4.nsNext n = h1.nsNext n ∧ h4.plist n = h1.plist n := by
    intro n hn
    have e1 : n ≠ P.global := by unfold Prog.global; omega
    have e2 : n ≠ P.masterCfg := by unfold Prog.masterCfg; omega
    have e3 : n ≠ P.actuator := by unfold Prog.actuator; omega
    simp [h4, h3, h2, nsDeclare, copyNs, upd, e1, e2, e3]
  have hgm : P.global ≠ P.masterCfg := by unfold Prog.global Prog.masterCfg; omega
  have hga : P.global ≠ P.actuator := by unfold Prog.global Prog.actuator; omega
  have hma : P.masterCfg ≠ P.actuator := by unfold Prog.masterCfg Prog.actuator; omega
  have hMg : P.cell (nsObj [masterName]) ≠ P.global := by unfold Prog.global; omega
  have hMa : P.cell (nsObj [masterName]) ≠ P.actuator := by unfold Prog.actuator; omega
  have hMm : P.cell (nsObj [masterName]) ≠ P.masterCfg := by unfold Prog.masterCfg; omega
  have hi4 : Inv P.ops h4 := inv_congr hi (fun n hn => low n (cell_ops_lt hG hn)) rfl rfl rfl rfl rfl rfl
  have hsub := hi.tree.subs _ (root_mem hG)
  rw [subs_root hG] at hsub
  have hpl := hi.tree.plist _ (root_mem hG)
  rw [parsIn_root hG] at hpl
  have hcnt : ∀ n ∈ nss P.ops, h1.cnt n = 0 := by
    intro n hn
    rw [hi.cnt n hn, count_zero (fun p => (changed_decls (ops_decls P) p).1)]
    rfl
  refine ⟨h4, hrun, hi4, ?_⟩
  constructor
  · refine ⟨?_, ?_, ?_⟩
    · simp [h4, nsDeclare, upd, hga]
    · rw [← hsub.1]
      simp [h4, h3, h2, nsDeclare, copyNs, upd, hgm, hga]
    · show h4.nsNext _ = none
      rw [(low _ hM).2.2.2.2.1]
      exact hsub.2
  · show h4.plist _ = none
    rw [← show h1.plist (P.cell (nsObj [])) = none from hpl]
    simp [h4, h3, h2, nsDeclare, copyNs, upd, hgm, hga]
  · simp [h4, nsDeclare, upd]
  · simp [h4, nsDeclare, upd, Ne.symm hga]
  · simp [h4, nsDeclare, upd]
  · rw [(low _ hM).2.2.2.1]
    simp [h4, h3, h2, nsDeclare, copyNs, upd, hma, Ne.symm hgm, hMg]
  · rw [(low _ hM).2.2.2.2.2]
    simp [h4, h3, h2, nsDeclare, copyNs, upd, hma, hMg]
  · rw [← hcnt _ (root_mem hG)]
    simp [h4, h3, h2, nsDeclare, copyNs, upd, hgm, hga]
  · rw [← hcnt _ (ns_mem hG (.inr (master_sub m)))]
    simp [h4, h3, h2, nsDeclare, copyNs, upd, hma, hMg]

/-! ## Lookup from the copies -/

/-- Two namespaces with the same children. -/
theorem par_copy {g n : Nat} (hs : ∀ q, q ≠ [] → 0 ∉ q → getSub fuel h g q = getSub fuel h n q) (hpl : h.plist g = h.plist n) :
    ∀ (f : Nat) (s : Str), 0 ∉ s → s.length ≤ f → parFindLoop fuel h f (some g) s = parFindLoop fuel h f (some n) s
  | f, s, h0, hl => by
    unfold parFindLoop
    dsimp only
    by_cases hk : idSplit s < s.length
    · rw [if_pos hk, if_pos hk]
      cases f with
      | zero => omega
      | succ f =>
        dsimp only
        by_cases hq : s.take (idSplit s) = []
        · rw [hq]
          simp only [getSub, List.length_nil, if_true, bind, Except.bind]
          exact par_copy hs hpl f _ (fun h => h0 (List.mem_of_mem_drop h)) (by rw [List.length_drop]; omega)
        · rw [hs _ hq (fun h => h0 (List.mem_of_mem_take h))]
    · rw [if_neg hk, if_neg hk]
      unfold getPar
      rw [hpl]

theorem ns_copy {g n : Nat} (hs : ∀ q, q ≠ [] → 0 ∉ q → getSub fuel h g q = getSub fuel h n q) :
    ∀ (f : Nat) (s : Str), 0 ∉ s → s.length ≤ f → (components s).filter (· ≠ []) ≠ [] →
      nsFindLoop fuel h f (some g) s = nsFindLoop fuel h f (some n) s
  | f, [], _, _, he => by simp [components] at he
  | 0, a :: s, _, hl, _ => by simp at hl
  | f + 1, a :: s, h0, hl, he => by
    simp only [nsFindLoop]
    generalize hss : a :: s = ss at *
    have hlen : 0 < ss.length := by rw [← hss]; simp
    by_cases hq : ss.take (idSplit ss) = []
    · rw [hq]
      simp only [getSub, List.length_nil, if_true, bind, Except.bind]
      apply ns_copy hs f _ (fun h => h0 (List.mem_of_mem_drop h)) (by rw [List.length_drop]; omega)
      rw [components_split] at he
      split at he
      · rw [hq] at he; simpa using he
      · rename_i hk
        have : idSplit ss = 0 := by
          have := congrArg List.length hq
          rw [List.length_take, List.length_nil] at this
          omega
        omega
    · rw [hs _ hq (fun h => h0 (List.mem_of_mem_take h))]

theorem getSub_global (hG : Good (whole m) P) {l : List Op} (hsame : Msgpack.Same P.ops l) (hi : Tree l h) (hx : Extra P h) (hf : 2 ≤ fuel) {q : Str}
    (hq : q ≠ []) (h0 : 0 ∉ q) :
    getSub fuel h P.global q = .ok (if q = str "actuator" then some P.actuator
      else if q = masterName then some (P.cell (nsObj [masterName])) else none) := by
  unfold getSub
  rw [if_neg (by simpa using hq), findLoop_spec h0 hx.subG (by simpa using hf)]
  have hm := ns_mem hG (.inr (master_sub m))
  have hid : h.nsId (P.cell (nsObj [masterName])) = masterName := by
    rw [hi.nsId _ (by rw [hsame.nss]; exact hm), hsame.nsIdOf]
    exact (decl_ns (proper hG) (ns_decl hG (q := []) (k := masterName) (master_sub m))).1
  have hne : str "actuator" ≠ masterName := by decide
  congr 1
  by_cases h1 : q = str "actuator"
  · subst h1
    rw [if_pos rfl, List.find?_cons_of_pos (by simp [hx.idA])]
  · rw [if_neg h1, List.find?_cons_of_neg (by simpa [hx.idA] using fun e => h1 e.symm)]
    by_cases h2 : q = masterName
    · subst h2
      rw [if_pos rfl, List.find?_cons_of_pos (by simp [hid])]
    · rw [if_neg h2, List.find?_cons_of_neg (by simpa [hid] using fun e => h2 e.symm), List.find?_nil]

end Verif.Config
