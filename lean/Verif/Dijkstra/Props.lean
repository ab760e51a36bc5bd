import Verif.Dijkstra.Model
import Mathlib.Data.List.Perm.Subperm
import Mathlib.Data.List.Nodup

/-!
# Dijkstra: shortest paths
-/

namespace Verif.Dijkstra

/-! ## What is required -/

/-- `Walk edges u k v`: one gets from `u` to `v` along `k` edges. -/
inductive Walk (edges : Nat → List Nat) (u : Nat) : Nat → Nat → Prop where
  | refl : Walk edges u 0 u
  | step {k v w} : Walk edges u k v → w ∈ edges v → Walk edges u (k + 1) w

/-- Following `path_next` from `u` leads along edges to `v`, where the path ends, after `k` of them. -/
inductive Follows (edges : Nat → List Nat) (next : Nat → Option Nat) (v : Nat) : Nat → Nat → Prop where
  | done : next v = none → Follows edges next v 0 v
  | step {k u w} : next u = some w → w ∈ edges u → Follows edges next v k w → Follows edges next v (k + 1) u

/-! ## The exploration -/

variable {edges : Nat → List Nat} {n s : Nat}

theorem set_same {α : Type} (f : Nat → α) (i : Nat) (x : α) : set f i x i = x := if_pos rfl

theorem set_ne {α : Type} (f : Nat → α) {i j : Nat} (x : α) (h : j ≠ i) : set f i x j = f j := if_neg h

/-- The invariant. `vs` are the visited nodes; the edges of visited nodes have been looked at, except those of `v` that are still in `todo`. -/
structure Inv (edges : Nat → List Nat) (n s : Nat) (st : St) (vs : List Nat) (v : Nat) (todo : List Nat) : Prop where
  nodup : vs.Nodup
  lt : ∀ x ∈ vs, x < n
  mem : ∀ x, st.visited x = true ↔ x ∈ vs
  dist : ∀ x ∈ vs, st.distance x ≤ st.distance v
  fin : ∀ x ∈ vs, st.distance x < intMax
  order : ∀ x, x ∉ vs → st.distance v ≤ st.distance x
  bound : ∀ x, st.distance x = intMax ∨ st.distance x ≤ vs.length
  start : st.distance s = 0
  zero : ∀ x, st.distance x = 0 → x = s
  parent : ∀ x, st.distance x < intMax → x ≠ s → ∃ p ∈ vs, st.parent x = some p ∧ x ∈ edges p ∧ st.distance x = st.distance p + 1
  edge : ∀ x ∈ vs, ∀ w ∈ edges x, (x = v ∧ w ∈ todo) ∨ st.distance w ≤ st.distance x + 1
  orphan : ∀ x, st.distance x = intMax → st.parent x = none
  out : ∀ x, n ≤ x → st.distance x = intMax
  next : ∀ x, st.pathNext x = none

theorem length_le {vs : List Nat} (hnd : vs.Nodup) (hlt : ∀ x ∈ vs, x < n) : vs.length ≤ n := by
  have := (List.subperm_of_subset hnd (fun x hx => List.mem_range.mpr (hlt x hx))).length_le
  rwa [List.length_range] at this

theorem relax_inv (hn : n < intMax) (hE : ∀ x < n, ∀ w ∈ edges x, w < n) {v : Nat} {vs : List Nat} (hv : v ∈ vs) : ∀ {todo : List Nat} {st : St}, Inv edges n s st vs v todo →
    (∀ w ∈ todo, w ∈ edges v) → st.distance v + 1 ≤ vs.length →
    ∃ st', relax v todo st = .ok st' ∧ Inv edges n s st' vs v [] ∧ st'.distance v = st.distance v
  | [], st, hi, _, _ => ⟨st, rfl, hi, rfl⟩
  | w :: ws, st, hi, ht, hk => by
    have hlen := length_le hi.nodup hi.lt
    unfold relax
    rw [if_neg (by unfold intMax at *; omega)]
    by_cases hc : st.distance w > st.distance v + 1
    · rw [if_pos hc]
      have hwv : w ∉ vs := fun h => by have := hi.dist w h; omega
      have hne : v ≠ w := fun e => hwv (e ▸ hv)
      have hs0 := hi.start
      have hws : w ≠ s := by
        intro e; subst e; omega
      have hin : Inv edges n s { st with distance := set st.distance w (st.distance v + 1), parent := set st.parent w (some v) } vs v ws := by
        have hd : ∀ x ∈ vs, set st.distance w (st.distance v + 1) x = st.distance x := fun x hx => set_ne _ _ (fun e => hwv (e ▸ hx))
        have hle : ∀ x, set st.distance w (st.distance v + 1) x ≤ st.distance x := by
          intro x
          by_cases hx : x = w
          · subst hx; rw [set_same]; omega
          · rw [set_ne _ _ hx]; exact Nat.le_refl _
        refine ⟨hi.nodup, hi.lt, hi.mem, ?_, ?_, ?_, ?_, ?_, ?_, ?_, ?_, ?_, ?_, hi.next⟩
        · intro x hx; simp only; rw [hd x hx, hd v hv]; exact hi.dist x hx
        · intro x hx; simp only; rw [hd x hx]; exact hi.fin x hx
        · intro x hx
          simp only
          rw [hd v hv]
          by_cases hxw : x = w
          · subst hxw; rw [set_same]; omega
          · rw [set_ne _ _ hxw]; exact hi.order x hx
        · intro x
          simp only
          by_cases hxw : x = w
          · subst hxw; rw [set_same]; exact .inr hk
          · rw [set_ne _ _ hxw]; exact hi.bound x
        · simp only; rw [set_ne _ _ (Ne.symm hws)]; exact hs0
        · intro x hx
          simp only at hx
          by_cases hxw : x = w
          · subst hxw; rw [set_same] at hx; omega
          · rw [set_ne _ _ hxw] at hx; exact hi.zero x hx
        · intro x hx hxs
          simp only at hx ⊢
          by_cases hxw : x = w
          · subst hxw
            exact ⟨v, hv, by rw [set_same], ht x List.mem_cons_self, by rw [set_same, hd v hv]⟩
          · rw [set_ne _ _ hxw] at hx
            obtain ⟨p, h1, h2, h3, h4⟩ := hi.parent x hx hxs
            refine ⟨p, h1, ?_, h3, ?_⟩
            · rw [set_ne _ _ hxw]; exact h2
            · rw [hd p h1, set_ne _ _ hxw]; exact h4
        · intro x hx y hy
          simp only
          rw [hd x hx]
          rcases hi.edge x hx y hy with ⟨rfl, h1⟩ | h1
          · rcases List.mem_cons.mp h1 with rfl | h1
            · right; rw [set_same]; exact Nat.le_refl _
            · exact .inl ⟨rfl, h1⟩
          · have := hle y; omega
        · intro x hx
          simp only at hx ⊢
          by_cases hxw : x = w
          · subst hxw; rw [set_same] at hx; omega
          · rw [set_ne _ _ hxw] at hx ⊢; exact hi.orphan x hx
        · intro x hx
          simp only
          have hwn := hE v (hi.lt v hv) w (ht w List.mem_cons_self)
          rw [set_ne _ _ (by omega)]
          exact hi.out x hx
      have hdv : set st.distance w (st.distance v + 1) v = st.distance v := set_ne _ _ hne
      obtain ⟨st', h1, h2, h3⟩ := relax_inv hn hE hv hin (fun x hx => ht x (List.mem_cons_of_mem _ hx)) (by simp only; rw [hdv]; exact hk)
      exact ⟨st', h1, h2, h3.trans hdv⟩
    · rw [if_neg hc]
      refine relax_inv hn hE hv ?_ (fun x hx => ht x (List.mem_cons_of_mem _ hx)) hk
      refine { hi with edge := ?_ }
      intro x hx y hy
      rcases hi.edge x hx y hy with ⟨rfl, h1⟩ | h1
      · rcases List.mem_cons.mp h1 with rfl | h1
        · right; omega
        · exact .inl ⟨rfl, h1⟩
      · exact .inr h1

/-- The selection finds an unvisited node with minimal distance, or there is none with a finite one. -/
theorem select_spec (st : St) : ∀ (l : List Nat) (x : Nat × Nat),
    (select st l x = x ∧ ∀ i ∈ l, st.visited i = false → x.2 ≤ st.distance i) ∨
    (∃ i ∈ l, st.visited i = false ∧ select st l x = (i, st.distance i) ∧ st.distance i < x.2 ∧ ∀ j ∈ l, st.visited j = false → st.distance i ≤ st.distance j)
  | [], x => .inl ⟨rfl, by simp⟩
  | i :: l, x => by
    unfold select
    by_cases hc : st.visited i = false ∧ x.2 > st.distance i
    · rw [if_pos hc]
      rcases select_spec st l (i, st.distance i) with ⟨h1, h2⟩ | ⟨j, h1, h2, h3, h4, h5⟩
      · refine .inr ⟨i, List.mem_cons_self, hc.1, h1, hc.2, ?_⟩
        intro j hj hv
        rcases List.mem_cons.mp hj with rfl | hj
        · exact Nat.le_refl _
        · exact h2 j hj hv
      · simp only at h4
        refine .inr ⟨j, List.mem_cons_of_mem _ h1, h2, h3, by omega, ?_⟩
        intro k hk hv
        rcases List.mem_cons.mp hk with rfl | hk
        · omega
        · exact h5 k hk hv
    · rw [if_neg hc]
      rcases select_spec st l x with ⟨h1, h2⟩ | ⟨j, h1, h2, h3, h4, h5⟩
      · refine .inl ⟨h1, ?_⟩
        intro j hj hv
        rcases List.mem_cons.mp hj with rfl | hj
        · have : ¬ x.2 > st.distance j := fun h => hc ⟨hv, h⟩
          omega
        · exact h2 j hj hv
      · refine .inr ⟨j, List.mem_cons_of_mem _ h1, h2, h3, h4, ?_⟩
        intro k hk hv
        rcases List.mem_cons.mp hk with rfl | hk
        · have : ¬ x.2 > st.distance k := fun h => hc ⟨hv, h⟩
          omega
        · exact h5 k hk hv

/-- What the exploration leaves behind. -/
structure Done (edges : Nat → List Nat) (n s : Nat) (st : St) : Prop where
  start : st.distance s = 0
  zero : ∀ x, st.distance x = 0 → x = s
  bound : ∀ x, st.distance x = intMax ∨ st.distance x ≤ n
  parent : ∀ x, st.distance x < intMax → x ≠ s → ∃ p, st.distance p < intMax ∧ st.parent x = some p ∧ x ∈ edges p ∧ st.distance x = st.distance p + 1
  edge : ∀ x, x < n → st.distance x < intMax → ∀ w ∈ edges x, st.distance w ≤ st.distance x + 1
  orphan : ∀ x, st.distance x = intMax → st.parent x = none
  next : ∀ x, st.pathNext x = none

theorem explore_done (hn : n < intMax) (hE : ∀ x < n, ∀ w ∈ edges x, w < n) : ∀ {f v : Nat} {st : St} {vs : List Nat}, n + 1 ≤ f + vs.length →
    Inv edges n s st vs v [] → ((v ∈ vs ∧ ∀ x, x ∉ vs → st.distance x = intMax) ∨ (v ∉ vs ∧ v < n ∧ st.distance v < intMax)) →
    ∃ st', explore edges n f v st = .ok st' ∧ Done edges n s st'
  | 0, v, st, vs, hf, hi, hc => by
    have := length_le hi.nodup hi.lt; omega
  | f + 1, v, st, vs, hf, hi, hc => by
    unfold explore
    rcases hc with ⟨hv, hfin⟩ | ⟨hvs, hvn, hfin⟩
    · rw [if_neg (by simp [(hi.mem v).mpr hv])]
      refine ⟨st, rfl, hi.start, hi.zero, ?_, ?_, ?_, hi.orphan, hi.next⟩
      · intro x
        have := length_le hi.nodup hi.lt
        have := hi.bound x
        omega
      · intro x hx hxs
        obtain ⟨p, h1, h2⟩ := hi.parent x hx hxs
        exact ⟨p, hi.fin p h1, h2⟩
      · intro x hx hd w hw
        by_cases hxv : x ∈ vs
        · rcases hi.edge x hxv w hw with ⟨_, h⟩ | h
          · cases h
          · exact h
        · have := hfin x hxv; omega
    · have hvis : st.visited v = false := by
        cases h : st.visited v
        · rfl
        · exact absurd ((hi.mem v).mp h) hvs
      rw [if_pos hvis]
      have hlen : st.distance v ≤ vs.length := by rcases hi.bound v with h | h <;> omega
      have hi0 : Inv edges n s { st with visited := set st.visited v true } (v :: vs) v (edges v) := by
        refine ⟨List.nodup_cons.mpr ⟨hvs, hi.nodup⟩, ?_, ?_, ?_, ?_, ?_, ?_, hi.start, hi.zero, ?_, ?_, hi.orphan, hi.out, hi.next⟩
        · intro x hx
          rcases List.mem_cons.mp hx with rfl | hx
          · exact hvn
          · exact hi.lt x hx
        · intro x
          simp only [List.mem_cons]
          by_cases hx : x = v
          · subst hx; rw [set_same]; simp
          · rw [set_ne _ _ hx, hi.mem x]; simp [hx]
        · intro x hx
          rcases List.mem_cons.mp hx with rfl | hx
          · exact Nat.le_refl _
          · exact hi.dist x hx
        · intro x hx
          rcases List.mem_cons.mp hx with rfl | hx
          · exact hfin
          · exact hi.fin x hx
        · intro x hx
          exact hi.order x (fun h => hx (List.mem_cons_of_mem _ h))
        · intro x
          simp only [List.length_cons]
          have := hi.bound x
          omega
        · intro x h1 h2
          obtain ⟨p, h3, h4⟩ := hi.parent x h1 h2
          exact ⟨p, List.mem_cons_of_mem _ h3, h4⟩
        · intro x hx w hw
          rcases List.mem_cons.mp hx with rfl | hx
          · exact .inl ⟨rfl, hw⟩
          · rcases hi.edge x hx w hw with ⟨_, h⟩ | h
            · cases h
            · exact .inr h
      obtain ⟨st1, h1, h2, h3⟩ := relax_inv hn hE List.mem_cons_self hi0 (fun w hw => hw) (by simp only [List.length_cons]; omega)
      rw [h1]
      simp only
      have hnotmem : ∀ x, st1.visited x = false ↔ x ∉ v :: vs := by
        intro x
        rw [← h2.mem x]
        simp
      rcases select_spec st1 (List.range n) (v, intMax) with ⟨g1, g2⟩ | ⟨i, g1, g2, g3, g4, g5⟩
      · rw [g1]
        refine explore_done hn hE (by simp only [List.length_cons]; omega) h2 (.inl ⟨List.mem_cons_self, ?_⟩)
        intro x hx
        by_cases hxn : x < n
        · have := g2 x (List.mem_range.mpr hxn) ((hnotmem x).mpr hx)
          have := h2.bound x
          have := length_le h2.nodup h2.lt
          omega
        · exact h2.out x (by omega)
      · rw [g3]
        simp only at g4 ⊢
        have hin : i ∉ v :: vs := (hnotmem i).mp g2
        refine explore_done hn hE (by simp only [List.length_cons]; omega) (vs := v :: vs) ?_ (.inr ⟨hin, List.mem_range.mp g1, g4⟩)
        refine { h2 with dist := ?_, order := ?_, edge := ?_ }
        · intro x hx
          exact Nat.le_trans (h2.dist x hx) (h2.order i hin)
        · intro x hx
          by_cases hxn : x < n
          · exact g5 x (List.mem_range.mpr hxn) ((hnotmem x).mpr hx)
          · have := h2.out x (by omega); omega
        · intro x hx w hw
          rcases h2.edge x hx w hw with ⟨_, h⟩ | h
          · cases h
          · exact .inr h

theorem init_inv (hs : s < n) : Inv edges n s (init s) [] s [] := by
  refine ⟨.nil, by simp, ?_, by simp, by simp, ?_, ?_, set_same (fun _ => intMax) s 0, ?_, ?_, by simp, fun _ _ => rfl, ?_, fun _ => rfl⟩
  · intro x; simp [init]
  · intro x _
    simp only [init, set_same]
    exact Nat.zero_le _
  · intro x
    simp only [init]
    by_cases hx : x = s
    · subst hx; rw [set_same]; exact .inr (Nat.zero_le _)
    · rw [set_ne _ _ hx]; exact .inl rfl
  · intro x hx
    simp only [init] at hx
    apply Classical.byContradiction
    intro h
    rw [set_ne _ _ h] at hx
    cases hx
  · intro x hx hxs
    simp only [init] at hx
    rw [set_ne _ _ hxs] at hx
    omega
  · intro x hx
    simp only [init]
    rw [set_ne _ _ (by omega)]

/-! ## Distances -/

/-- Distances are lengths of walks … -/
theorem Done.walk {st : St} (h : Done edges n s st) : ∀ {d x : Nat}, st.distance x = d → d < intMax → Walk edges s d x
  | 0, x, hd, _ => by rw [h.zero x hd]; exact .refl
  | d + 1, x, hd, hlt => by
    have hxs : x ≠ s := fun e => by subst e; rw [h.start] at hd; cases hd
    obtain ⟨p, h1, _, h3, h4⟩ := h.parent x (by omega) hxs
    exact .step (h.walk (by omega : st.distance p = d) (by omega)) h3

/-- … and no walk is shorter. -/
theorem Done.short {st : St} (h : Done edges n s st) (hn : n + 1 < intMax) (hs : s < n) (hE : ∀ x < n, ∀ w ∈ edges x, w < n) {k x : Nat} (hw : Walk edges s k x) :
    x < n ∧ st.distance x < intMax ∧ st.distance x ≤ k := by
  induction hw with
  | refl => rw [h.start]; exact ⟨hs, by unfold intMax; omega, Nat.le_refl _⟩
  | step _ hw ih =>
    obtain ⟨h1, h2, h3⟩ := ih
    have h4 := h.edge _ h1 h2 _ hw
    have h5 := hE _ h1 _ hw
    refine ⟨h5, ?_, by omega⟩
    rename_i v w _
    rcases h.bound v with h6 | h6
    · omega
    · rcases h.bound w with h7 | h7 <;> omega

/-! ## The path -/

theorem follows_congr {next next' : Nat → Option Nat} {e : Nat} {f : Nat → Nat} (hs : ∀ a b, next a = some b → f b = f a + 1) :
    ∀ {k u : Nat}, (∀ x, f u ≤ f x → next' x = next x) → Follows edges next e k u → Follows edges next' e k u
  | 0, u, hn, h => by
    cases h with
    | done h => exact .done ((hn _ (Nat.le_refl _)).trans h)
  | k + 1, u, hn, h => by
    cases h with
    | step h1 h2 h3 =>
      rename_i w
      have := hs u w h1
      exact .step ((hn u (Nat.le_refl _)).trans h1) h2 (follows_congr hs (fun x hx => hn x (by omega)) h3)

theorem backtrack_spec {st0 : St} (h : Done edges n s st0) {e : Nat} : ∀ {f p k d : Nat} {st : St}, st.distance = st0.distance → st.parent = st0.parent →
    st.distance p = d → d < intMax → d < f → (∀ a b, st.pathNext a = some b → st.distance b = st.distance a + 1) →
    Follows edges st.pathNext e k p → ∃ st', backtrack s f p st = .ok (d, st') ∧ Follows edges st'.pathNext e (k + d) s
  | 0, p, k, d, st, _, _, _, _, hf, _, _ => by omega
  | f + 1, p, k, d, st, h1, h2, hd, hlt, hf, hn, hfol => by
    unfold backtrack
    by_cases hp : p = s
    · subst hp
      rw [if_pos rfl]
      have : d = 0 := by rw [← hd, h1]; exact h.start
      subst this
      exact ⟨st, rfl, hfol⟩
    · rw [if_neg hp]
      obtain ⟨q, g1, g2, g3, g4⟩ := h.parent p (by rw [← h1]; omega) hp
      rw [show st.parent p = some q by rw [h2]; exact g2]
      simp only
      rw [← h1] at g1 g4
      have hn' : ∀ a b, set st.pathNext q (some p) a = some b → st.distance b = st.distance a + 1 := by
        intro a b hab
        by_cases ha : a = q
        · subst ha; rw [set_same] at hab; cases hab; exact g4
        · rw [set_ne _ _ ha] at hab; exact hn a b hab
      have hfol' : Follows edges (set st.pathNext q (some p)) e (k + 1) q := by
        refine .step (set_same _ _ _) g3 (follows_congr (f := st.distance) hn ?_ hfol)
        intro x hx
        exact set_ne _ _ (fun e => by subst e; omega)
      obtain ⟨st', r1, r2⟩ := backtrack_spec h (f := f) (p := q) (k := k + 1) (d := d - 1) (st := { st with pathNext := set st.pathNext q (some p) })
        h1 h2 (by simp only; omega) (by omega) (by omega) hn' hfol'

      rw [r1]
      refine ⟨st', ?_, ?_⟩
      · simp only; rw [show d - 1 + 1 = d by omega]
      · rw [show k + d = k + 1 + (d - 1) by omega]; exact r2

/-! ## Properties -/

/-- C36: if the end can be reached, the nodes on the path from the start that `dijkstra` stores are connected by edges and lead to the end; the returned length
is their number, and there is no shorter way. -/
theorem shortest (hn : n < 2147483646) (hE : ∀ x < n, ∀ w ∈ edges x, w < n) {e : Nat} (hs : s < n) {k : Nat} (hw : Walk edges s k e) :
    ∃ len st, dijkstra edges n s e = .ok (len, st) ∧ Follows edges st.pathNext e len s ∧ Walk edges s len e ∧ ∀ k, Walk edges s k e → len ≤ k := by
  have hn' : n + 1 < intMax := by unfold intMax; omega
  obtain ⟨st, h1, h2⟩ := explore_done (by omega) hE (f := n + 1) (vs := []) (by simp) (init_inv (edges := edges) hs)
    (.inr ⟨by simp, hs, by simp only [init]; rw [set_same]; unfold intMax; omega⟩)
  obtain ⟨he, hfin, hle⟩ := h2.short hn' hs hE hw
  have hb : st.distance e < n + 1 := by rcases h2.bound e with h | h <;> omega
  obtain ⟨st', g1, g2⟩ := backtrack_spec h2 (f := n + 1) (k := 0) rfl rfl rfl hfin hb (fun a b hab => by rw [h2.next a] at hab; cases hab) (.done (h2.next e))
  refine ⟨st.distance e, st', ?_, by simpa using g2, h2.walk rfl hfin, fun k hk => (h2.short hn' hs hE hk).2.2⟩
  unfold dijkstra
  rw [h1]
  exact g1

/-- What happens to an end that cannot be reached: a null pointer is followed. -/
theorem unreachable (hn : n < 2147483646) (hE : ∀ x < n, ∀ w ∈ edges x, w < n) {e : Nat} (hs : s < n) (hw : ∀ k, ¬ Walk edges s k e) :
    dijkstra edges n s e = .error .null := by
  obtain ⟨st, h1, h2⟩ := explore_done (by unfold intMax; omega) hE (f := n + 1) (vs := []) (by simp) (init_inv (edges := edges) hs)
    (.inr ⟨by simp, hs, by simp only [init]; rw [set_same]; unfold intMax; omega⟩)
  have hd : st.distance e = intMax := by
    rcases h2.bound e with h | h
    · exact h
    · exact absurd (h2.walk rfl (by unfold intMax; omega)) (hw _)
  have hes : e ≠ s := fun h => hw 0 (h ▸ .refl)
  unfold dijkstra
  rw [h1]
  simp only
  unfold backtrack
  rw [if_neg hes, h2.orphan e hd]

/-- A graph with a cycle and two ways from 0 to 3. -/
def graph : Nat → List Nat
  | 0 => [1, 4]
  | 1 => [0, 2]
  | 2 => [3]
  | 4 => [3]
  | _ => []

/-- The shorter way is found … -/
example : ∃ st, dijkstra graph 6 0 3 = .ok (2, st) ∧ st.pathNext 0 = some 4 ∧ st.pathNext 4 = some 3 := ⟨_, rfl, rfl, rfl⟩

/-- … by `shortest`, whose hypotheses are met. -/
example : ∃ len st, dijkstra graph 6 0 3 = .ok (len, st) ∧ len ≤ 3 := by
  obtain ⟨len, st, h1, _, _, h4⟩ := shortest (edges := graph) (n := 6) (s := 0) (e := 3) (k := 3) (by omega) (by
      intro x hx w hw
      have : x = 0 ∨ x = 1 ∨ x = 2 ∨ x = 3 ∨ x = 4 ∨ x = 5 := by omega
      rcases this with rfl | rfl | rfl | rfl | rfl | rfl <;> simp [graph] at hw <;> omega) (by omega)
    (.step (.step (.step .refl (by simp [graph] : 1 ∈ graph 0)) (by simp [graph] : 2 ∈ graph 1)) (by simp [graph] : 3 ∈ graph 2))
  exact ⟨len, st, h1, h4 3 (.step (.step (.step .refl (by simp [graph] : 1 ∈ graph 0)) (by simp [graph] : 2 ∈ graph 1)) (by simp [graph] : 3 ∈ graph 2))⟩

example : dijkstra graph 6 3 0 = .error .null := rfl

end Verif.Dijkstra
