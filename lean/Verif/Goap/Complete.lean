import Verif.Goap.Steps

/-!
# GOAP planner: completeness
-/

namespace Verif.Goap

open Spec

variable {S : Type} [DecidableEq S] {P : Problem S} {s0 : S} {N : Nat}

theorem executes_reachable {acts : List (Action S)} {s s' : S} {l : List (Option Nat)} (h : Executes acts s l s') {s0 : S} (h0 : Reachable acts s0 s) :
    Reachable acts s0 s' := by
  induction h with
  | nil => exact h0
  | cons h1 h2 _ ih => exact ih (.step h0 (List.mem_of_getElem? h1) h2)

theorem Normal.reachable {st : St S} {fl ol cl : List Nat} (hi : Normal P s0 N st fl ol cl) {p : Nat} (hp : p ∈ ol ++ cl) : Reachable P.acts s0 (st.h p).state := by
  have hcl : ∀ q ∈ cl, Reachable P.acts s0 (st.h q).state := by
    intro q hq
    obtain ⟨l, _, _, h⟩ := ancestors_ok (fun p hp => hi.link p (List.mem_append.mpr (.inr hp))) _ hq (Nat.le_refl _)
    exact executes_reachable h .refl
  rcases hi.link p hp with ⟨_, h1⟩ | ⟨q, i, a, _, h2, _, h4, h5, h6, _⟩
  · rw [h1]; exact .refl
  · rw [h6]; exact .step (hcl q h2) (List.mem_of_getElem? h4) h5

theorem trail_reachable {acts : List (Action S)} {vs : List S} (h : Trail acts s0 vs) : vs.Nodup ∧ ∀ s ∈ vs, Reachable acts s0 s := by
  induction h with
  | start => exact ⟨by simp, by intro s hs; rw [List.mem_singleton] at hs; subst hs; exact .refl⟩
  | step _ ha hr hn ih =>
    refine ⟨List.nodup_cons.mpr ⟨hn, ih.1⟩, ?_⟩
    intro s hs
    rcases List.mem_cons.mp hs with rfl | hs
    · exact .step (ih.2 _ List.mem_cons_self) ha hr
    · exact ih.2 _ hs

/-- The states of the ancestors of a closed node are a trail. -/
theorem ancestors_trail {h : Heap S} {cl : List Nat} (hl : ∀ p ∈ cl, Link P s0 h cl p) (hd : ∀ p ∈ cl, ∀ q ∈ cl, (h p).state = (h q).state → p = q) :
    ∀ (n : Nat) {p : Nat} {l : List Nat}, p ∈ cl → ancestors n h p = .ok l →
      ∃ vs, Trail P.acts s0 ((h p).state :: vs) ∧ vs.length = l.length ∧ ∀ v ∈ vs, ∃ q ∈ cl, (h q).state = v ∧ (h q).cost < (h p).cost := by
  intro n
  induction n with
  | zero =>
    intro p l hp ha
    rcases hl p hp with ⟨h1, h2⟩ | ⟨q, i, a, h1, h2, h3, h4, h5, h6, h7⟩
    · unfold ancestors at ha
      rw [h1] at ha
      cases ha
      exact ⟨[], by rw [h2]; exact .start, rfl, by simp⟩
    · unfold ancestors at ha
      rw [h1] at ha
      cases ha
  | succ n ih =>
    intro p l hp ha
    rcases hl p hp with ⟨h1, h2⟩ | ⟨q, i, a, h1, h2, h3, h4, h5, h6, h7⟩
    · unfold ancestors at ha
      rw [h1] at ha
      cases ha
      exact ⟨[], by rw [h2]; exact .start, rfl, by simp⟩
    · unfold ancestors at ha
      rw [h1] at ha
      simp only at ha
      split at ha
      · rename_i l' hl'
        cases ha
        obtain ⟨vs, g1, g2, g3⟩ := ih h2 hl'
        have hall : ∀ v ∈ (h q).state :: vs, ∃ r ∈ cl, (h r).state = v ∧ (h r).cost < (h p).cost := by
          intro v hv
          rcases List.mem_cons.mp hv with rfl | hv
          · exact ⟨q, h2, rfl, h7⟩
          · obtain ⟨r, r1, r2, r3⟩ := g3 v hv
            exact ⟨r, r1, r2, by omega⟩
        refine ⟨(h q).state :: vs, ?_, by simp only [List.length_cons, g2], hall⟩
        rw [h6]
        refine .step g1 (List.mem_of_getElem? h4) h5 ?_
        intro hm
        obtain ⟨r, r1, r2, r3⟩ := hall _ hm
        have := hd r r1 p hp (r2.trans h6.symm)
        subst this
        omega
      · cases ha

/-- As many nodes count as there are different states. -/
theorem Normal.live_le {st : St S} {fl ol cl : List Nat} (hi : Normal P s0 N st fl ol cl) {R : List S} (hR : ∀ s, Reachable P.acts s0 s → s ∈ R) :
    (ol ++ cl).length ≤ R.length := by
  have hnd : ((ol ++ cl).map fun p => (st.h p).state).Nodup := by
    refine List.Nodup.map_on ?_ (List.nodup_append.mp hi.nodup).2.1
    intro p hp q hq he
    exact hi.distinct p hp q hq he
  have hsub : ((ol ++ cl).map fun p => (st.h p).state) ⊆ R := by
    intro s hs
    obtain ⟨p, hp, rfl⟩ := List.mem_map.mp hs
    exact hR _ (hi.reachable hp)
  have := (List.subperm_of_subset hnd hsub).length_le
  rwa [List.length_map] at this

def Covered (h : Heap S) (live : List Nat) (s : S) : Prop := ∃ p ∈ live, (h p).state = s

/-- Costs and priorities of the nodes that count. -/
def Bounded (h : Heap S) (live : List Nat) (K M : Int) : Prop :=
  ∀ p ∈ live, 0 ≤ (h p).cost ∧ (h p).cost ≤ K ∧ 0 ≤ (h p).priority ∧ (h p).priority ≤ M

theorem expandAll_full {R : List S} (hR : ∀ s, Reachable P.acts s0 s → s ∈ R) (hN : R.length < N) {D : Int} (hD : ∀ s, 0 ≤ P.dist s ∧ P.dist s ≤ D) {K M : Int}
    (hK : K + 1 ≤ intMax) (hM : M + (D + 1) ≤ intMax) {cur : Nat} {cl : List Nat} (hcur : cur ∈ cl) :
    ∀ {as : List (Action S)} {i : Nat} {st : St S} {fl ol}, as = P.acts.drop i → Normal P s0 N st fl ol cl →
      Bounded st.h (ol ++ cl) (K + 1) (M + (D + 1)) → (st.h cur).cost ≤ K → (st.h cur).priority ≤ M →
      ∃ st' fl' ol', expandAll N P cur as i st = .ok (.go st') ∧ Normal P s0 N st' fl' ol' cl ∧ Bounded st'.h (ol' ++ cl) (K + 1) (M + (D + 1)) ∧
        (∀ s, Covered st.h (ol ++ cl) s → Covered st'.h (ol' ++ cl) s) ∧ (∀ p ∈ cl, (st'.h p).state = (st.h p).state) ∧
        ∀ a ∈ as, a.canRun (st.h cur).state = true → Covered st'.h (ol' ++ cl) (a.effects (st.h cur).state)
  | [], i, st, fl, ol, _, hi, hb, _, _ => ⟨st, fl, ol, rfl, hi, hb, fun _ h => h, fun _ _ => rfl, by simp⟩
  | a :: as, i, st, fl, ol, has, hi, hb, hc, hp => by
    have ha : P.acts[i]? = some a := by
      have := congrArg (fun l : List (Action S) => l[0]?) has
      simpa using this.symm
    have has' : as = P.acts.drop (i + 1) := by
      have := congrArg List.tail has
      simpa using this
    have hlive := hi.live_le hR
    have hcount := hi.count
    rw [List.length_append] at hlive
    cases fl with
    | nil => simp only [List.length_nil] at hcount; omega
    | cons n fl =>
      unfold expandAll
      by_cases hr : a.canRun (st.h cur).state = true
      · rw [if_pos hr, alloc_some hi.free.1]
        simp only
        rcases expand1_normal hi hcur ha hr with ⟨st1, fl1, ol1, g1, g2, g0, g3, g4, g5⟩ | ⟨g0, _⟩
        · rw [g1]
          simp only
          have hmc : ∀ {p}, p ∈ cl → p ∈ ol ++ cl := fun h => List.mem_append.mpr (.inr h)
          have hcb := hb cur (hmc hcur)
          have hb1 : Bounded st1.h (ol1 ++ cl) (K + 1) (M + (D + 1)) := by
            intro p hp'
            rcases g5 p hp' with ⟨e1, e2, e3, e4⟩ | ⟨e1, e2, e3, e4⟩
            · have hbp := hb p e1
              rw [e3]
              refine ⟨hbp.1, hbp.2.1, ?_⟩
              have := hD (st1.h p).state
              rcases e4 with e4 | e4 <;> rw [e4] <;> omega
            · have := hD (a.effects (st.h cur).state)
              rw [e3, e4]; omega
          have hcc : (st1.h cur).cost = (st.h cur).cost := by
            rcases g5 cur (List.mem_append.mpr (.inr hcur)) with e | ⟨e, _⟩
            · exact e.2.2.1
            · exfalso
              have : n ∉ fl ++ (ol ++ cl) := (List.nodup_cons.mp hi.nodup).1
              exact this (List.mem_append.mpr (.inr (hmc (e ▸ hcur))))
          obtain ⟨st2, fl2, ol2, r1, r2, r3, r4, r5, r6⟩ := expandAll_full hR hN hD hK hM hcur has' g2 hb1 (by omega) (by omega)
          have hcov : ∀ s, Covered st.h (ol ++ cl) s → Covered st2.h (ol2 ++ cl) s := by
            rintro s ⟨p, h1, h2⟩
            exact r4 s ⟨p, (g3 p h1).1, (g3 p h1).2.trans h2⟩
          have hstate := (g3 cur (hmc hcur)).2
          refine ⟨st2, fl2, ol2, r1, r2, r3, hcov, fun p hp => (r5 p hp).trans (g3 p (hmc hp)).2, ?_⟩
          intro b hb' hbr
          rcases List.mem_cons.mp hb' with rfl | hb'
          · exact r4 _ g4
          · have := r6 b hb' (by rw [hstate]; exact hbr)
            rwa [hstate] at this
        · exfalso
          apply g0
          have hcb := hb cur (List.mem_append.mpr (.inr hcur))
          have := hD (a.effects (st.h cur).state)
          unfold Fits
          omega
      · rw [if_neg hr]
        obtain ⟨st2, fl2, ol2, r1, r2, r3, r4, r5, r6⟩ := expandAll_full hR hN hD hK hM hcur has' hi hb hc hp
        refine ⟨st2, fl2, ol2, r1, r2, r3, r4, r5, ?_⟩
        intro b hb' hbr
        rcases List.mem_cons.mp hb' with rfl | hb'
        · exact absurd hbr hr
        · exact r6 b hb' hbr

theorem loop_full {R : List S} (hR : ∀ s, Reachable P.acts s0 s → s ∈ R) (hN : R.length < N) {D : Int} (hD : ∀ s, 0 ≤ P.dist s ∧ P.dist s ≤ D)
    (hsize : N * (D + 1) < intMax) {pathLen : Int} (hpl : ∀ vs, Trail P.acts s0 vs → (vs.length : Int) ≤ pathLen + 1) :
    ∀ {fuel : Nat} {st : St S} {fl ol cl}, Normal P s0 N st fl ol cl → Bounded st.h (ol ++ cl) cl.length (cl.length * (D + 1)) → Covered st.h (ol ++ cl) s0 →
      (∀ q ∈ cl, P.reached (st.h q).state = false ∧ ∀ a ∈ P.acts, a.canRun (st.h q).state = true → Covered st.h (ol ++ cl) (a.effects (st.h q).state)) →
      N + 2 ≤ fuel + cl.length →
      ∃ r, loop N P pathLen fuel st = .ok r ∧ (0 ≤ r.code ↔ ∃ s, Reachable P.acts s0 s ∧ P.reached s = true)
  | 0, st, fl, ol, cl, hi, _, _, _, hf => by have := hi.count; omega
  | fuel + 1, st, fl, ol, cl, hi, hb, h0, hcl, hf => by
    have hcount := hi.count
    have hdist := hD s0
    have hlive := hi.live_le hR
    rw [List.length_append] at hlive
    unfold loop iter
    cases ol with
    | nil =>
      rw [show st.opn = none from hi.opn]
      refine ⟨_, rfl, by simp, ?_⟩
      rintro ⟨s, hs, hg⟩
      exfalso
      have : Covered st.h cl s := by
        clear hg
        induction hs with
        | refl => exact h0
        | step _ ha hr ih =>
          obtain ⟨p, hp, he⟩ := ih
          have := (hcl p hp).2 _ ha (by rw [he]; exact hr)
          rw [he] at this
          exact this
      obtain ⟨p, hp, he⟩ := this
      have := (hcl p hp).1
      rw [he, hg] at this
      cases this
    | cons o ol =>
      rw [hi.opn.1]
      simp only
      have hndo : (o :: ol).Nodup := (List.nodup_append.mp (List.nodup_append.mp hi.nodup).2.1).1
      have hopn := hi.opn
      rw [hi.opn.1] at hopn
      have hmul : (cl.length : Int) * (D + 1) + (D + 1) ≤ N * (D + 1) := by
        have h1 : (cl.length : Int) + 1 ≤ N := by simp only [List.length_cons] at hcount; omega
        have h2 := Int.mul_le_mul_of_nonneg_right h1 (by omega : (0 : Int) ≤ D + 1)
        rw [Int.add_mul, Int.one_mul] at h2
        exact h2
      rcases priorityPop_spec (N := N) hopn hndo (by omega) with ⟨cur, l', h', head', h1, h2, h3, h4, h5, _⟩ | ⟨_, h1⟩
      · rw [h1]
        simp only
        have hperm : (fl ++ (l' ++ cur :: cl)).Perm (fl ++ (o :: ol ++ cl)) := by
          refine List.Perm.append_left fl (List.perm_middle.trans ?_)
          exact (h2.symm.append_right cl)
        have hnd' := hperm.nodup_iff.mpr hi.nodup
        have hmem : ∀ p, p ∈ l' ++ cur :: cl ↔ p ∈ o :: ol ++ cl := by
          intro p
          have : (l' ++ cur :: cl).Perm (o :: ol ++ cl) := List.perm_middle.trans (h2.symm.append_right cl)
          exact this.mem_iff
        have hsame : Same st.h (h'.setNext cur st.close) := h4.trans (same_setNext _ _ _)
        have hnot : cur ∉ fl ∧ cur ∉ l' ∧ cur ∉ cl := by
          simp only [List.nodup_append, List.nodup_cons, List.mem_append, List.mem_cons] at hnd'
          grind
        have hdisj : ∀ q, q ∈ fl ∨ q ∈ cl → q ∉ o :: ol := by
          have := hi.nodup
          simp only [List.nodup_append, List.mem_append] at this
          grind
        have hn : Normal P s0 N ⟨h'.setNext cur st.close, st.free, head', some cur⟩ fl l' (cur :: cl) := by
          refine ⟨?_, chain_setNext hnot.2.1 h3, ⟨rfl, ?_⟩, hnd', ?_, ?_, ?_⟩
          · exact chain_setNext hnot.1 (chain_congr (fun q hq => by rw [h5 q (hdisj q (.inl hq))]) hi.free)
          · rw [setNext_next]
            exact chain_setNext hnot.2.2 (chain_congr (fun q hq => by rw [h5 q (hdisj q (.inr hq))]) hi.close)
          · have := h2.length_eq
            simp only [List.length_cons] at this hcount ⊢
            omega
          · intro p hp
            exact ((hi.link p ((hmem p).mp hp)).same hsame).mono (fun q hq => List.mem_cons_of_mem _ hq)
          · intro p hp q hq he
            simp only [(hsame p).2.2.1, (hsame q).2.2.1] at he
            exact hi.distinct p ((hmem p).mp hp) q ((hmem q).mp hq) he
        have hc' := hn.count
        have hcurl : cur ∈ l' ++ cur :: cl := List.mem_append.mpr (.inr List.mem_cons_self)
        by_cases hr : P.reached (h'.setNext cur st.close cur).state = true
        · rw [if_pos hr]
          obtain ⟨r, g1, _, _⟩ := finish_spec (cl := cur :: cl) (N := N) (pathLen := pathLen) (fun p hp => hn.link p (List.mem_append.mpr (.inr hp)))
            List.mem_cons_self (by omega) hr
          rw [g1]
          refine ⟨r, rfl, ?_⟩
          refine ⟨fun _ => ⟨_, hn.reachable hcurl, hr⟩, fun _ => ?_⟩
          unfold finish at g1
          split at g1
          · cases g1
          · rename_i l hl
            obtain ⟨vs, t1, t2, _⟩ := ancestors_trail (cl := cur :: cl) (fun p hp => hn.link p (List.mem_append.mpr (.inr hp)))
              (fun p hp q hq he => hn.distinct p (List.mem_append.mpr (.inr hp)) q (List.mem_append.mpr (.inr hq)) he) N List.mem_cons_self hl
            have := hpl _ t1
            simp only [List.length_cons] at this
            cases g1
            rw [if_neg (by omega)]
            simp only
            omega
        · rw [if_neg hr]
          have hb' : Bounded (h'.setNext cur st.close) (l' ++ cur :: cl) (cl.length + 1) (cl.length * (D + 1) + (D + 1)) := by
            intro p hp
            have := hb p ((hmem p).mp hp)
            rw [(hsame p).1, (hsame p).2.1]
            omega
          have hbc := hb cur ((hmem cur).mp hcurl)
          obtain ⟨st2, fl2, ol2, r1, r2, r3, r4, r5, r6⟩ := expandAll_full (K := cl.length) (M := cl.length * (D + 1)) hR hN hD (by
              have h1 : ((N : Int)) * 1 ≤ N * (D + 1) := Int.mul_le_mul_of_nonneg_left (by omega) (by omega)
              simp only [List.length_cons] at hcount
              omega) (by omega) (cur := cur) List.mem_cons_self (as := P.acts) (i := 0) rfl hn hb'
            (by simp only [(hsame cur).2.1]; exact hbc.2.1) (by simp only [(hsame cur).1]; exact hbc.2.2.2)
          rw [r1]
          simp only
          have cov0 : ∀ s, Covered st.h (o :: ol ++ cl) s → Covered st2.h (ol2 ++ cur :: cl) s := by
            rintro s ⟨p, hp, he⟩
            exact r4 s ⟨p, (hmem p).mpr hp, (hsame p).2.2.1.trans he⟩
          refine loop_full hR hN hD hsize hpl r2 ?_ (cov0 s0 h0) ?_ (by simp only [List.length_cons]; omega)
          · intro p hp
            have := r3 p hp
            simp only [List.length_cons, Int.natCast_add, Int.cast_ofNat_Int]
            rw [Int.add_mul, Int.one_mul]
            exact this
          · intro q hq
            have hq' := hq
            rw [r5 q hq']
            simp only [(hsame q).2.2.1]
            rcases List.mem_cons.mp hq with rfl | hq
            · refine ⟨by simpa [(hsame q).2.2.1] using hr, ?_⟩
              intro a ha har
              have := r6 a ha (by simp only [(hsame q).2.2.1]; exact har)
              simp only [(hsame q).2.2.1] at this
              exact this
            · exact ⟨(hcl q hq).1, fun a ha har => cov0 _ ((hcl q hq).2 a ha har)⟩
      · exfalso
        have ho := h1 o List.mem_cons_self
        have := hb o (by simp)
        omega

end Verif.Goap
