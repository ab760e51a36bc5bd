import Verif.Oa.Spec
import Mathlib.Data.List.Perm.Subperm
import Mathlib.Data.List.Nodup

/-!
# Obstacle avoidance: the search
-/

namespace Verif.Oa

theorem Adj.symm {rays : List Ray} {u v : Vertex} {c : Nat} (h : Adj rays u v c) : Adj rays v u c := Or.symm h

/-- What the search needs to know about the points and rays. -/
structure Env (idx : Vertex → Nat) (rays : List Ray) (pts : List Vertex) (W : Nat) : Prop where
  inj : ∀ u ∈ pts, ∀ v ∈ pts, idx u = idx v → u = v
  nodup : pts.Nodup
  org : origin ∈ pts
  ends : ∀ u v c, Adj rays u v c → u ∈ pts
  weight : ∀ u v c, Adj rays u v c → 0 < c ∧ c ≤ W
  loop : ∀ c, ¬ Adj rays origin origin c
  fits : (pts.length + 1) * W ≤ intMax

variable {idx : Vertex → Nat} {rays : List Ray} {pts : List Vertex} {W : Nat}

/-- The weight of a point; that of the end counts as zero even after the code has changed it. -/
def lab (idx : Vertex → Nat) (st : St) (v : Vertex) : Nat := if v = origin then 0 else st.pweight (idx v)

/-- Ways from the end to a point without cycles, on which all points have labels that are not worse. -/
inductive Way (rays : List Ray) (L : Vertex → Nat) : Vertex → List Vertex → Nat → Prop where
  | start : Way rays L origin [origin] 0
  | step {y x l w c} : Way rays L y l w → Adj rays y x c → x ∉ l → L x ≠ 0 → L x ≤ w + c → Way rays L x (x :: l) (w + c)

theorem Way.nodup {L : Vertex → Nat} {x l w} (h : Way rays L x l w) : l.Nodup := by
  induction h with
  | start => simp
  | step _ _ h1 _ _ ih => exact List.nodup_cons.mpr ⟨h1, ih⟩

theorem Way.subset {L : Vertex → Nat} {x l w} (E : Env idx rays pts W) (h : Way rays L x l w) : ∀ v ∈ l, v ∈ pts := by
  induction h with
  | start => simp [E.org]
  | step _ ha _ _ _ ih =>
    intro v hv
    rcases List.mem_cons.mp hv with rfl | hv
    · exact E.ends _ _ _ ha.symm
    · exact ih v hv

theorem Way.weight {L : Vertex → Nat} {x l w} (E : Env idx rays pts W) (h : Way rays L x l w) : w + W ≤ l.length * W := by
  induction h with
  | start => simp
  | step _ ha _ _ _ ih =>
    have := (E.weight _ _ _ ha).2
    rw [List.length_cons, Nat.succ_mul]
    omega

theorem Way.bound {L : Vertex → Nat} {x l w} (E : Env idx rays pts W) (h : Way rays L x l w) : w + W ≤ pts.length * W := by
  have h1 := h.weight E
  have h2 := (List.subperm_of_subset h.nodup (h.subset E)).length_le
  have := Nat.mul_le_mul_right W h2
  omega

theorem Way.low {L : Vertex → Nat} (h0 : L origin = 0) {x l w} (h : Way rays L x l w) : ∀ v ∈ l, L v ≤ w := by
  induction h with
  | start => simp [h0]
  | step _ _ _ _ hl ih =>
    intro v hv
    rcases List.mem_cons.mp hv with rfl | hv
    · exact hl
    · exact Nat.le_trans (ih v hv) (Nat.le_add_right _ _)

theorem Way.mono {L L' : Vertex → Nat} (hL : ∀ x, L x ≠ 0 → L' x ≠ 0 ∧ L' x ≤ L x) {x l w} (h : Way rays L x l w) : Way rays L' x l w := by
  induction h with
  | start => exact .start
  | step _ ha hn hz hl ih => exact .step ih ha hn (hL _ hz).1 (Nat.le_trans (hL _ hz).2 hl)

theorem Way.origin_mem {L : Vertex → Nat} {x l w} (h : Way rays L x l w) : origin ∈ l := by
  induction h with
  | start => simp
  | step _ _ _ _ _ ih => exact List.mem_cons_of_mem _ ih

/-- All rays from `x` have been taken into account. -/
def Relaxed (idx : Vertex → Nat) (rays : List Ray) (st : St) (x : Vertex) : Prop :=
  ∀ z c, Adj rays x z c → z ≠ origin → st.pweight (idx z) ≠ 0 ∧ st.pweight (idx z) ≤ lab idx st x + c

/-- The parent of a point -/
def par (idx : Vertex → Nat) (st : St) (x : Vertex) : Vertex := (st.p (idx x), st.pt (idx x))

/-- The invariant of the search; `ex` is the point that is being processed. -/
structure Inv (idx : Vertex → Nat) (rays : List Ray) (pts : List Vertex) (W : Nat) (ex : Option Vertex) (st : St) : Prop where
  way : ∀ x ∈ pts, x ≠ origin → st.pweight (idx x) ≠ 0 → ∃ l, Way rays (lab idx st) x l (st.pweight (idx x))
  unseen : ∀ x ∈ pts, x ≠ origin → st.pweight (idx x) = 0 → st.valid (idx x) = 0
  seen : ∀ x ∈ pts, x ≠ origin → st.pweight (idx x) ≠ 0 → st.valid (idx x) = 1 ∨ st.valid (idx x) = 2
  parent : ∀ x ∈ pts, x ≠ origin → st.pweight (idx x) ≠ 0 → (par idx st x ≠ origin → st.pweight (idx (par idx st x)) ≠ 0) ∧
    ∃ c, Adj rays (par idx st x) x c ∧ lab idx st (par idx st x) + c ≤ st.pweight (idx x)
  done : ∀ x ∈ pts, x ≠ origin → some x ≠ ex → st.valid (idx x) = 1 → Relaxed idx rays st x
  org : Relaxed idx rays st origin ∨ (st.pweight (idx origin) = 0 ∧ (ex = some origin ∨ (st.valid (idx origin) = 2 ∧ ∀ x ∈ pts, x ≠ origin → st.pweight (idx x) = 0)))
  orgB : st.pweight (idx origin) ≤ pts.length * W

/-- What is still to come -/
def todo (idx : Vertex → Nat) (pts : List Vertex) (W : Nat) (st : St) : Nat :=
  (pts.map fun x => if st.pweight (idx x) = 0 then pts.length * W + 1 else st.pweight (idx x)).sum

theorem sum_le {α : Type} {f g : α → Nat} : ∀ {l : List α}, (∀ x ∈ l, g x ≤ f x) → (l.map g).sum ≤ (l.map f).sum
  | [], _ => Nat.le_refl _
  | a :: l, h => by
    simp only [List.map_cons, List.sum_cons]
    have := h a List.mem_cons_self
    have := sum_le (l := l) fun x hx => h x (List.mem_cons_of_mem _ hx)
    omega

theorem sum_lt {α : Type} {f g : α → Nat} : ∀ {l : List α}, (∀ x ∈ l, g x ≤ f x) → ∀ a ∈ l, g a < f a → (l.map g).sum < (l.map f).sum
  | b :: l, h, a, ha, hlt => by
    simp only [List.map_cons, List.sum_cons]
    have h1 := h b List.mem_cons_self
    have h2 := sum_le (l := l) fun x hx => h x (List.mem_cons_of_mem _ hx)
    rcases List.mem_cons.mp ha with rfl | ha
    · omega
    · have := sum_lt (fun x hx => h x (List.mem_cons_of_mem _ hx)) a ha hlt
      omega

theorem upd_idx {α : Type} (E : Env idx rays pts W) {u v : Vertex} (hu : u ∈ pts) (hv : v ∈ pts) (f : Nat → α) (x : α) :
    upd f (idx u) x (idx v) = if v = u then x else f (idx v) := by
  unfold upd
  by_cases h : v = u
  · subst h; simp
  · rw [if_neg h, if_neg (fun e => h (E.inj v hv u hu e))]

/-- The change of labels while points are processed -/
structure Better (idx : Vertex → Nat) (rays : List Ray) (pts : List Vertex) (W : Nat) (cur : Vertex) (st st' : St) : Prop where
  inv : Inv idx rays pts W (some cur) st'
  low : ∀ x ∈ pts, st.pweight (idx x) ≠ 0 → st'.pweight (idx x) ≠ 0 ∧ st'.pweight (idx x) ≤ st.pweight (idx x)
  same : st'.pweight (idx cur) = st.pweight (idx cur)
  valid : st'.valid (idx cur) = st.valid (idx cur) ∨ st'.valid (idx cur) = 1

theorem Better.refl {cur : Vertex} {st : St} (h : Inv idx rays pts W (some cur) st) : Better idx rays pts W cur st st :=
  ⟨h, fun _ _ h => ⟨h, Nat.le_refl _⟩, rfl, .inl rfl⟩

theorem Better.trans {cur : Vertex} {a b c : St} (h : Better idx rays pts W cur a b) (g : Better idx rays pts W cur b c) : Better idx rays pts W cur a c := by
  refine ⟨g.inv, ?_, g.same.trans h.same, ?_⟩
  · intro x hx hz
    have h1 := h.low x hx hz
    have h2 := g.low x hx h1.1
    exact ⟨h2.1, Nat.le_trans h2.2 h1.2⟩
  · rcases g.valid with g1 | g1
    · rw [g1]; exact h.valid
    · exact .inr g1

/-- Whether `cur` can be processed: it has its own label, or it is the end. -/
def Ready (idx : Vertex → Nat) (rays : List Ray) (st : St) (cur : Vertex) : Prop :=
  if cur = origin then Relaxed idx rays st origin ∨ st.pweight (idx origin) = 0
  else st.pweight (idx cur) ≠ 0 ∧ Relaxed idx rays st origin

theorem Relaxed.mono (E : Env idx rays pts W) {st st' : St} {x : Vertex} (h : Relaxed idx rays st x) (hx : lab idx st' x = lab idx st x)
    (hl : ∀ z ∈ pts, z ≠ origin → st.pweight (idx z) ≠ 0 → st'.pweight (idx z) ≠ 0 ∧ st'.pweight (idx z) ≤ st.pweight (idx z)) :
    Relaxed idx rays st' x := by
  intro z c ha hz
  have h1 := h z c ha hz
  have h2 := hl z (E.ends _ _ _ ha.symm) hz h1.1
  exact ⟨h2.1, by rw [hx]; omega⟩

theorem lab_origin (idx : Vertex → Nat) (st : St) : lab idx st origin = 0 := if_pos rfl

theorem lab_ne {x : Vertex} (idx : Vertex → Nat) (st : St) (h : x ≠ origin) : lab idx st x = st.pweight (idx x) := if_neg h

theorem relax1_spec (E : Env idx rays pts W) {cur z : Vertex} {c : Nat} (ha : Adj rays cur z c) {st : St} (hi : Inv idx rays pts W (some cur) st)
    (hr : Ready idx rays st cur) :
    ∃ st' b, relax1 idx cur z c st = .ok (st', b) ∧ Better idx rays pts W cur st st' ∧ Ready idx rays st' cur ∧
      (z ≠ origin → st'.pweight (idx z) ≠ 0 ∧ st'.pweight (idx z) ≤ lab idx st cur + c) ∧
      (b = false → st' = st) ∧ (b = true → todo idx pts W st' < todo idx pts W st) := by
  have hcur : cur ∈ pts := E.ends _ _ _ ha
  have hz : z ∈ pts := E.ends _ _ _ ha.symm
  obtain ⟨hc0, hcW⟩ := E.weight _ _ _ ha
  have hfit := E.fits
  -- the weight of the current point is bounded
  have hbound : st.pweight (idx cur) + c ≤ pts.length * W ∨ (cur = origin ∧ st.pweight (idx cur) + c ≤ intMax ∧ Relaxed idx rays st origin) := by
    by_cases hco : cur = origin
    · subst hco
      by_cases hR : Relaxed idx rays st origin
      · right
        have := hi.orgB
        rw [Nat.succ_mul] at hfit
        exact ⟨rfl, by omega, hR⟩
      · left
        unfold Ready at hr
        rw [if_pos rfl] at hr
        have hp := hr.resolve_left hR
        have : 1 ≤ pts.length := by
          have := List.length_pos_of_mem E.org
          omega
        have := Nat.mul_le_mul_right W this
        rw [hp]; omega
    · left
      unfold Ready at hr
      rw [if_neg hco] at hr
      obtain ⟨l, hl⟩ := hi.way cur hcur hco hr.1
      have := hl.bound E
      omega
  have hno : ¬ st.pweight (idx cur) + c > intMax := by
    rw [Nat.succ_mul] at hfit
    rcases hbound with h | h <;> omega
  unfold relax1
  rw [if_neg hno]
  by_cases hcond : st.pweight (idx z) ≠ 0 ∧ st.pweight (idx cur) + c ≥ st.pweight (idx z)
  · rw [if_pos hcond]
    refine ⟨st, false, rfl, Better.refl hi, hr, ?_, fun _ => rfl, fun h => by cases h⟩
    intro hzo
    refine ⟨hcond.1, ?_⟩
    by_cases hco : cur = origin
    · subst hco
      unfold Ready at hr
      rw [if_pos rfl] at hr
      rcases hr with h | h
      · exact (h z c ha hzo).2
      · rw [lab_origin]; omega
    · rw [lab_ne idx st hco]; exact hcond.2
  · rw [if_neg hcond]
    -- an improvement
    have hzc : z ≠ cur := by
      rintro rfl
      by_cases hco : z = origin
      · subst hco; exact E.loop _ ha
      · unfold Ready at hr
        rw [if_neg hco] at hr
        exact hcond ⟨hr.1, by omega⟩
    have hcur0 : cur = origin → z ≠ origin ∧ st.pweight (idx origin) = 0 := by
      intro hco
      subst hco
      refine ⟨hzc, ?_⟩
      unfold Ready at hr
      rw [if_pos rfl] at hr
      rcases hr with h | h
      · have := h z c ha hzc
        rw [lab_origin] at this
        exact absurd ⟨this.1, by omega⟩ hcond
      · exact h
    have hlabcur : st.pweight (idx cur) = lab idx st cur := by
      by_cases hco : cur = origin
      · rw [hco, lab_origin]; exact (hcur0 hco).2
      · rw [lab_ne idx st hco]
    have hsum : st.pweight (idx cur) + c ≤ pts.length * W := by
      rcases hbound with h | ⟨h1, h2, h3⟩
      · exact h
      · subst h1
        have := h3 z c ha hzc
        rw [lab_origin] at this
        exact absurd ⟨this.1, by omega⟩ hcond
    let st' : St := ⟨upd (upd st.valid (idx z) 2) (idx cur) 1, upd st.pweight (idx z) (st.pweight (idx cur) + c), upd st.p (idx z) cur.1, upd st.pt (idx z) cur.2⟩
    have hw : ∀ x ∈ pts, st'.pweight (idx x) = if x = z then st.pweight (idx cur) + c else st.pweight (idx x) := fun x hx => upd_idx E hz hx _ _
    have hv : ∀ x ∈ pts, st'.valid (idx x) = if x = cur then 1 else if x = z then 2 else st.valid (idx x) := by
      intro x hx
      show upd (upd st.valid (idx z) 2) (idx cur) 1 (idx x) = _
      rw [upd_idx E hcur hx, upd_idx E hz hx]
    have hpar : ∀ x ∈ pts, par idx st' x = if x = z then cur else par idx st x := by
      intro x hx
      show (upd st.p (idx z) cur.1 (idx x), upd st.pt (idx z) cur.2 (idx x)) = _
      rw [upd_idx E hz hx, upd_idx E hz hx]
      by_cases h : x = z
      · rw [if_pos h, if_pos h, if_pos h]
      · rw [if_neg h, if_neg h, if_neg h]; rfl
    have hlow : ∀ x ∈ pts, st.pweight (idx x) ≠ 0 → st'.pweight (idx x) ≠ 0 ∧ st'.pweight (idx x) ≤ st.pweight (idx x) := by
      intro x hx h0
      rw [hw x hx]
      by_cases h : x = z
      · rw [if_pos h]
        subst h
        have : ¬ st.pweight (idx cur) + c ≥ st.pweight (idx x) := fun h => hcond ⟨h0, h⟩
        omega
      · rw [if_neg h]; exact ⟨h0, Nat.le_refl _⟩
    have hlabcur' : lab idx st' cur = lab idx st cur := by
      unfold lab
      rw [hw cur hcur, if_neg hzc.symm]
    have hlabne : ∀ x ∈ pts, x ≠ z → lab idx st' x = lab idx st x := by
      intro x hx h
      unfold lab
      rw [hw x hx, if_neg h]
    have hlabz : z ≠ origin → lab idx st' z = st.pweight (idx cur) + c := by
      intro h
      rw [lab_ne idx st' h, hw z hz, if_pos rfl]
    have hlablow : ∀ x ∈ pts, lab idx st x ≠ 0 → lab idx st' x ≠ 0 ∧ lab idx st' x ≤ lab idx st x := by
      intro x hx h0
      by_cases hxo : x = origin
      · subst hxo; rw [lab_origin] at h0; exact absurd rfl h0
      · rw [lab_ne _ _ hxo] at h0 ⊢; rw [lab_ne _ _ hxo]
        exact hlow x hx h0
    -- labels outside of the points do not matter for ways
    have hway : ∀ {x l w}, Way rays (lab idx st) x l w → Way rays (lab idx st') x l w := by
      intro x l w h
      induction h with
      | start => exact .start
      | step _ ha hn hz hl ih =>
        have := hlablow _ (E.ends _ _ _ ha.symm) hz
        exact .step ih ha hn this.1 (Nat.le_trans this.2 hl)
    have hrel : ∀ x, x ≠ z ∨ z = origin → x ∈ pts → Relaxed idx rays st x → Relaxed idx rays st' x := by
      intro x hxz hx h
      refine h.mono E ?_ (fun y hy _ => hlow y hy)
      rcases hxz with h | h
      · exact hlabne x hx h
      · by_cases h' : x = z
        · rw [h', h, lab_origin, lab_origin]
        · exact hlabne x hx h'
    have horgR : cur ≠ origin → Relaxed idx rays st' origin := by
      intro hco
      unfold Ready at hr
      rw [if_neg hco] at hr
      refine hrel origin ?_ E.org hr.2
      by_cases h : z = origin
      · exact .inr h
      · exact .inl (Ne.symm h)
    have hready : Ready idx rays st' cur := by
      unfold Ready at hr ⊢
      by_cases hco : cur = origin
      · rw [if_pos hco]
        right
        rw [hw origin E.org, if_neg (Ne.symm (hcur0 hco).1)]
        exact (hcur0 hco).2
      · rw [if_neg hco] at hr ⊢
        exact ⟨(hlow cur hcur hr.1).1, horgR hco⟩
    refine ⟨st', true, rfl, ⟨?_, hlow, ?_, ?_⟩, hready, ?_, (fun h => by cases h), ?_⟩
    · refine ⟨?_, ?_, ?_, ?_, ?_, ?_, ?_⟩
      · intro x hx hxo h0
        by_cases hxz : x = z
        · subst hxz
          rw [hw x hx, if_pos rfl]
          by_cases hco : cur = origin
          · refine ⟨[x, origin], ?_⟩
            rw [hco] at ha
            rw [hco, (hcur0 hco).2]
            refine .step .start ha ?_ ?_ ?_
            · simpa using hxo
            · rw [hlabz hxo]; omega
            · rw [hlabz hxo, hco, (hcur0 hco).2]; exact Nat.le_refl _
          · have hr' := hr
            unfold Ready at hr'
            rw [if_neg hco] at hr'
            obtain ⟨l, hl⟩ := hi.way cur hcur hco hr'.1
            refine ⟨x :: l, .step (hway hl) ha ?_ ?_ ?_⟩
            · intro hm
              have := hl.low (lab_origin idx st) x hm
              rw [lab_ne _ _ hxo] at this
              refine hcond ⟨?_, by omega⟩
              intro hz0
              -- a point on a way has a label
              have : ∀ {y l w}, Way rays (lab idx st) y l w → x ∈ l → x = origin ∨ lab idx st x ≠ 0 := by
                intro y l w hW
                induction hW with
                | start => intro h; left; simpa using h
                | step _ _ _ h0 _ ih =>
                  intro h
                  rcases List.mem_cons.mp h with rfl | h
                  · exact .inr h0
                  · exact ih h
              rcases this hl hm with h | h
              · exact hxo h
              · rw [lab_ne _ _ hxo] at h; exact h hz0
            · rw [hlabz hxo]; omega
            · rw [hlabz hxo]; exact Nat.le_refl _
        · rw [hw x hx, if_neg hxz] at h0 ⊢
          obtain ⟨l, hl⟩ := hi.way x hx hxo h0
          exact ⟨l, hway hl⟩
      · intro x hx hxo h0
        rw [hw x hx] at h0
        by_cases hxz : x = z
        · rw [if_pos hxz] at h0; omega
        · rw [if_neg hxz] at h0
          rw [hv x hx, if_neg hxz]
          by_cases hxc : x = cur
          · subst hxc
            unfold Ready at hr
            rw [if_neg hxo] at hr
            exact absurd h0 hr.1
          · rw [if_neg hxc]; exact hi.unseen x hx hxo h0
      · intro x hx hxo h0
        rw [hv x hx]
        by_cases hxc : x = cur
        · rw [if_pos hxc]; exact .inl rfl
        · rw [if_neg hxc]
          by_cases hxz : x = z
          · rw [if_pos hxz]; exact .inr rfl
          · rw [if_neg hxz]
            rw [hw x hx, if_neg hxz] at h0
            exact hi.seen x hx hxo h0
      · intro x hx hxo h0
        rw [hpar x hx]
        by_cases hxz : x = z
        · subst hxz
          rw [if_pos rfl, hw x hx, if_pos rfl]
          refine ⟨fun h => ?_, c, ha, ?_⟩
          · unfold Ready at hr
            rw [if_neg h] at hr
            exact (hlow cur hcur hr.1).1
          · rw [hlabcur', hlabcur]; exact Nat.le_refl _
        · rw [if_neg hxz]
          rw [hw x hx, if_neg hxz] at h0 ⊢
          obtain ⟨h1, c', h2, h3⟩ := hi.parent x hx hxo h0
          have hp : par idx st x ∈ pts := E.ends _ _ _ h2
          refine ⟨fun h => (hlow _ hp (h1 h)).1, c', h2, ?_⟩
          have : lab idx st' (par idx st x) ≤ lab idx st (par idx st x) := by
            by_cases h : par idx st x = origin
            · rw [h, lab_origin, lab_origin]; exact Nat.le_refl _
            · have := h1 h
              rw [← lab_ne idx st h] at this
              exact (hlablow _ hp this).2
          omega
      · intro x hx hxo hxc hv1
        have hxc' : x ≠ cur := fun h => hxc (by rw [h])
        rw [hv x hx, if_neg hxc'] at hv1
        by_cases hxz : x = z
        · rw [if_pos hxz] at hv1; cases hv1
        · rw [if_neg hxz] at hv1
          exact hrel x (.inl hxz) hx (hi.done x hx hxo hxc hv1)
      · by_cases hco : cur = origin
        · right
          rw [hw origin E.org, if_neg (Ne.symm (hcur0 hco).1)]
          exact ⟨(hcur0 hco).2, .inl (by rw [hco])⟩
        · exact .inl (horgR hco)
      · rw [hw origin E.org]
        by_cases h : origin = z
        · rw [if_pos h]; exact hsum
        · rw [if_neg h]; exact hi.orgB
    · rw [hw cur hcur, if_neg hzc.symm]
    · right
      rw [hv cur hcur, if_pos rfl]
    · intro hzo
      rw [hw z hz, if_pos rfl, hlabcur]
      exact ⟨by omega, Nat.le_refl _⟩
    · intro _
      refine sum_lt ?_ z hz ?_
      · intro x hx
        rw [hw x hx]
        by_cases hxz : x = z
        · subst hxz
          rw [if_pos rfl, if_neg (by omega)]
          split
          · omega
          · rename_i h0
            have : ¬ st.pweight (idx cur) + c ≥ st.pweight (idx x) := fun h => hcond ⟨h0, h⟩
            omega
        · rw [if_neg hxz]; exact Nat.le_refl _
      · rw [hw z hz, if_pos rfl, if_neg (by omega)]
        split
        · omega
        · rename_i h0
          have : ¬ st.pweight (idx cur) + c ≥ st.pweight (idx z) := fun h => hcond ⟨h0, h⟩
          omega

/-- What processing the rays `rs` of `cur` achieves -/
structure Step (idx : Vertex → Nat) (rays : List Ray) (pts : List Vertex) (W : Nat) (cur : Vertex) (rs : List Ray) (st st' : St) (b : Bool) : Prop where
  better : Better idx rays pts W cur st st'
  ready : Ready idx rays st' cur
  low : ∀ z c, Adj rs cur z c → z ≠ origin → st'.pweight (idx z) ≠ 0 ∧ st'.pweight (idx z) ≤ lab idx st cur + c
  same : b = false → st' = st
  less : b = true → todo idx pts W st' < todo idx pts W st

theorem Better.lab {cur : Vertex} {st st' : St} (h : Better idx rays pts W cur st st') : lab idx st' cur = lab idx st cur := by
  unfold Oa.lab
  rw [h.same]

theorem Step.nil {cur : Vertex} {st : St} {rs : List Ray} (hi : Inv idx rays pts W (some cur) st) (hr : Ready idx rays st cur)
    (h : ∀ z c, ¬ Adj rs cur z c) : Step idx rays pts W cur rs st st false :=
  ⟨Better.refl hi, hr, fun z c ha => absurd ha (h z c), fun _ => rfl, fun h => by cases h⟩

theorem Step.append (E : Env idx rays pts W) {cur : Vertex} {a b c : St} {x y : Bool} {rs ss qs : List Ray} (h : Step idx rays pts W cur rs a b x)
    (g : Step idx rays pts W cur ss b c y) (hq : ∀ z c, Adj qs cur z c → Adj rs cur z c ∨ Adj ss cur z c) (hrs : ∀ r ∈ rs, r ∈ rays) :
    Step idx rays pts W cur qs a c (x || y) := by
  refine ⟨h.better.trans g.better, g.ready, ?_, ?_, ?_⟩
  · intro z c' ha hz
    rcases hq z c' ha with h1 | h1
    · have h2 := h.low z c' h1 hz
      have hzp : z ∈ pts := E.ends z cur c' (by
        rcases h1 with h1 | h1
        · exact .inr (hrs _ h1)
        · exact .inl (hrs _ h1))
      have h3 := g.better.low z hzp h2.1
      exact ⟨h3.1, by omega⟩
    · have := g.low z c' h1 hz
      rwa [h.better.lab] at this
  · intro hb
    rw [Bool.or_eq_false_iff] at hb
    rw [g.same hb.2, h.same hb.1]
  · intro hb
    rw [Bool.or_eq_true] at hb
    have h1 : todo idx pts W b ≤ todo idx pts W a := by
      cases x
      · rw [h.same rfl]; exact Nat.le_refl _
      · exact Nat.le_of_lt (h.less rfl)
    have h2 : todo idx pts W c ≤ todo idx pts W b := by
      cases y
      · rw [g.same rfl]; exact Nat.le_refl _
      · exact Nat.le_of_lt (g.less rfl)
    rcases hb with hb | hb
    · have := h.less hb; omega
    · have := g.less hb; omega

theorem relaxRay_spec (E : Env idx rays pts W) {cur : Vertex} {r : Ray} (hr : r ∈ rays) {st : St} (hi : Inv idx rays pts W (some cur) st)
    (hd : Ready idx rays st cur) : ∃ st' b, relaxRay idx cur r st = .ok (st', b) ∧ Step idx rays pts W cur [r] st st' b := by
  obtain ⟨a, b, w⟩ := r
  have adjL : ∀ z c, Adj [⟨a, b, w⟩] cur z c → (cur = a ∧ z = b ∧ c = w) ∨ (cur = b ∧ z = a ∧ c = w) := by
    intro z c h
    unfold Adj at h
    simp only [List.mem_singleton, Ray.mk.injEq] at h
    rcases h with ⟨h1, h2, h3⟩ | ⟨h1, h2, h3⟩
    · exact .inl ⟨h1, h2, h3⟩
    · exact .inr ⟨h2, h1, h3⟩
  -- first direction
  have h1 : ∃ st1 x, (if cur = a then relax1 idx cur b w st else .ok (st, false)) = .ok (st1, x) ∧ Better idx rays pts W cur st st1 ∧
      Ready idx rays st1 cur ∧ (cur = a → b ≠ origin → st1.pweight (idx b) ≠ 0 ∧ st1.pweight (idx b) ≤ lab idx st cur + w) ∧
      (x = false → st1 = st) ∧ (x = true → todo idx pts W st1 < todo idx pts W st) := by
    by_cases hc : cur = a
    · subst hc
      obtain ⟨st1, x, g1, g2, g3, g4, g5, g6⟩ := relax1_spec E (.inl hr : Adj rays cur b w) hi hd
      exact ⟨st1, x, by rw [if_pos rfl]; exact g1, g2, g3, fun _ => g4, g5, g6⟩
    · exact ⟨st, false, if_neg hc, Better.refl hi, hd, fun h => absurd h hc, fun _ => rfl, fun h => by cases h⟩
  obtain ⟨st1, x, e1, b1, d1, l1, s1, t1⟩ := h1
  have h2 : ∃ st2 y, (if cur = b then relax1 idx cur a w st1 else .ok (st1, false)) = .ok (st2, y) ∧ Better idx rays pts W cur st1 st2 ∧
      Ready idx rays st2 cur ∧ (cur = b → a ≠ origin → st2.pweight (idx a) ≠ 0 ∧ st2.pweight (idx a) ≤ lab idx st1 cur + w) ∧
      (y = false → st2 = st1) ∧ (y = true → todo idx pts W st2 < todo idx pts W st1) := by
    by_cases hc : cur = b
    · subst hc
      obtain ⟨st1, x, g1, g2, g3, g4, g5, g6⟩ := relax1_spec E (.inr hr : Adj rays cur a w) b1.inv d1
      exact ⟨st1, x, by rw [if_pos rfl]; exact g1, g2, g3, fun _ => g4, g5, g6⟩
    · exact ⟨st1, false, if_neg hc, Better.refl b1.inv, d1, fun h => absurd h hc, fun _ => rfl, fun h => by cases h⟩
  obtain ⟨st2, y, e2, b2, d2, l2, s2, t2⟩ := h2
  refine ⟨st2, x || y, ?_, b1.trans b2, d2, ?_, ?_, ?_⟩
  · unfold relaxRay
    simp only [e1, e2]
  · intro z c h hz
    rcases adjL z c h with ⟨h1, rfl, rfl⟩ | ⟨h1, rfl, rfl⟩
    · have h3 := l1 h1 hz
      have h4 := b2.low z (E.ends z a c (.inr hr)) h3.1
      exact ⟨h4.1, by omega⟩
    · have := l2 h1 hz
      rwa [b1.lab] at this
  · intro hb
    rw [Bool.or_eq_false_iff] at hb
    rw [s2 hb.2, s1 hb.1]
  · intro hb
    rw [Bool.or_eq_true] at hb
    have h1 : todo idx pts W st1 ≤ todo idx pts W st := by
      cases x
      · rw [s1 rfl]; exact Nat.le_refl _
      · exact Nat.le_of_lt (t1 rfl)
    have h2 : todo idx pts W st2 ≤ todo idx pts W st1 := by
      cases y
      · rw [s2 rfl]; exact Nat.le_refl _
      · exact Nat.le_of_lt (t2 rfl)
    rcases hb with hb | hb
    · have := t1 hb; omega
    · have := t2 hb; omega

theorem relaxAll_spec (E : Env idx rays pts W) {cur : Vertex} : ∀ {rs : List Ray} {st : St}, (∀ r ∈ rs, r ∈ rays) →
    Inv idx rays pts W (some cur) st → Ready idx rays st cur →
    ∃ st' b, relaxAll idx cur rs st = .ok (st', b) ∧ Step idx rays pts W cur rs st st' b
  | [], st, _, hi, hd => ⟨st, false, rfl, Step.nil hi hd (by intro z c h; rcases h with h | h <;> cases h)⟩
  | r :: rs, st, hs, hi, hd => by
    obtain ⟨st1, x, e1, g1⟩ := relaxRay_spec E (hs r List.mem_cons_self) hi hd
    obtain ⟨st2, y, e2, g2⟩ := relaxAll_spec E (rs := rs) (st := st1) (fun q hq => hs q (List.mem_cons_of_mem _ hq)) g1.better.inv g1.ready
    refine ⟨st2, x || y, ?_, g1.append E g2 ?_ ?_⟩
    · unfold relaxAll
      simp only [e1, e2]
    · intro z c h
      unfold Adj at h ⊢
      simp only [List.mem_cons, List.not_mem_nil, or_false] at h ⊢
      rcases h with (h | h) | (h | h)
      · exact .inl (.inl h)
      · exact .inr (.inl h)
      · exact .inl (.inr h)
      · exact .inr (.inr h)
    · intro q hq
      rw [List.mem_singleton] at hq
      subst hq
      exact hs q List.mem_cons_self

/-- Processing one point completely -/
theorem point_spec (E : Env idx rays pts W) {cur : Vertex} (hc : cur ∈ pts) {st : St} (hi : Inv idx rays pts W none st) (hv : st.valid (idx cur) = 2) :
    ∃ st' b, relaxAll idx cur rays st = .ok (st', b) ∧ Inv idx rays pts W none st' ∧ (b = false → st' = st ∧ Relaxed idx rays st cur) ∧
      (b = true → todo idx pts W st' < todo idx pts W st) := by
  have hr : Ready idx rays st cur := by
    unfold Ready
    by_cases h : cur = origin
    · rw [if_pos h]
      rcases hi.org with h | h
      · exact .inl h
      · exact .inr h.1
    · rw [if_neg h]
      have h1 : st.pweight (idx cur) ≠ 0 := by
        intro h0
        have := hi.unseen cur hc h h0
        omega
      refine ⟨h1, ?_⟩
      rcases hi.org with h2 | ⟨_, h2 | h2⟩
      · exact h2
      · cases h2
      · exact absurd (h2.2 cur hc h) h1
  have hi' : Inv idx rays pts W (some cur) st := by
    refine ⟨hi.way, hi.unseen, hi.seen, hi.parent, fun x hx hxo _ => hi.done x hx hxo (by simp), ?_, hi.orgB⟩
    rcases hi.org with h2 | ⟨h1, h2 | h2⟩
    · exact .inl h2
    · cases h2
    · exact .inr ⟨h1, .inr h2⟩
  obtain ⟨st', b, e, g⟩ := relaxAll_spec E (rs := rays) (fun _ h => h) hi' hr
  have hR : Relaxed idx rays st' cur := by
    intro z c ha hz
    rw [g.better.lab]
    exact g.low z c ha hz
  refine ⟨st', b, e, ?_, ?_, g.less⟩
  · have hI := g.better.inv
    refine ⟨hI.way, hI.unseen, hI.seen, hI.parent, ?_, ?_, hI.orgB⟩
    · intro x hx hxo _ h1
      by_cases hxc : x = cur
      · rw [hxc]; exact hR
      · exact hI.done x hx hxo (by simpa using hxc) h1
    · rcases hI.org with h | ⟨h1, h2 | h2⟩
      · exact .inl h
      · cases h2; exact .inl hR
      · exact .inr ⟨h1, .inr h2⟩
  · intro hb
    have := g.same hb
    subst this
    exact ⟨rfl, hR⟩

theorem pass_spec (E : Env idx rays pts W) : ∀ {vs : List Vertex} {st : St}, (∀ v ∈ vs, v ∈ pts) → Inv idx rays pts W none st →
    ∃ st' b, pass idx rays vs st = .ok (st', b) ∧ Inv idx rays pts W none st' ∧
      (b = false → st' = st ∧ ∀ v ∈ vs, st.valid (idx v) = 2 → Relaxed idx rays st v) ∧ (b = true → todo idx pts W st' < todo idx pts W st)
  | [], st, _, hi => ⟨st, false, rfl, hi, fun _ => ⟨rfl, by simp⟩, fun h => by cases h⟩
  | v :: vs, st, hs, hi => by
    have h1 : ∃ st1 x, (if st.valid (idx v) ≠ 2 then .ok (st, false) else relaxAll idx v rays st) = .ok (st1, x) ∧ Inv idx rays pts W none st1 ∧
        (x = false → st1 = st ∧ (st.valid (idx v) = 2 → Relaxed idx rays st v)) ∧ (x = true → todo idx pts W st1 < todo idx pts W st) := by
      by_cases hv : st.valid (idx v) = 2
      · rw [if_neg (fun h => h hv)]
        obtain ⟨st1, x, e, g1, g2, g3⟩ := point_spec E (hs v List.mem_cons_self) hi hv
        exact ⟨st1, x, e, g1, fun h => ⟨(g2 h).1, fun _ => (g2 h).2⟩, g3⟩
      · rw [if_pos hv]
        exact ⟨st, false, rfl, hi, fun _ => ⟨rfl, fun h => absurd h hv⟩, fun h => by cases h⟩
    obtain ⟨st1, x, e1, i1, s1, t1⟩ := h1
    obtain ⟨st2, y, e2, i2, s2, t2⟩ := pass_spec E (vs := vs) (st := st1) (fun q hq => hs q (List.mem_cons_of_mem _ hq)) i1
    refine ⟨st2, x || y, ?_, i2, ?_, ?_⟩
    · unfold pass
      simp only [e1, e2]
    · intro hb
      rw [Bool.or_eq_false_iff] at hb
      obtain ⟨g1, g2⟩ := s1 hb.1
      obtain ⟨g3, g4⟩ := s2 hb.2
      subst g1
      refine ⟨g3, ?_⟩
      intro u hu
      rcases List.mem_cons.mp hu with rfl | hu
      · exact g2
      · exact g4 u hu
    · intro hb
      rw [Bool.or_eq_true] at hb
      have h1 : todo idx pts W st1 ≤ todo idx pts W st := by
        cases x
        · rw [(s1 rfl).1]; exact Nat.le_refl _
        · exact Nat.le_of_lt (t1 rfl)
      have h2 : todo idx pts W st2 ≤ todo idx pts W st1 := by
        cases y
        · rw [(s2 rfl).1]; exact Nat.le_refl _
        · exact Nat.le_of_lt (t2 rfl)
      rcases hb with hb | hb
      · have := t1 hb; omega
      · have := t2 hb; omega

/-- The result of the search -/
structure Final (idx : Vertex → Nat) (rays : List Ray) (pts : List Vertex) (W : Nat) (st : St) : Prop where
  inv : Inv idx rays pts W none st
  relaxed : ∀ x ∈ pts, x = origin ∨ st.pweight (idx x) ≠ 0 → Relaxed idx rays st x

theorem search_spec (E : Env idx rays pts W) : ∀ {f : Nat} {st : St}, todo idx pts W st < f → Inv idx rays pts W none st →
    ∃ st', search idx rays pts f st = .ok st' ∧ Final idx rays pts W st'
  | 0, st, h, _ => by omega
  | f + 1, st, hf, hi => by
    obtain ⟨st', b, e, g1, g2, g3⟩ := pass_spec E (vs := pts) (fun _ h => h) hi
    unfold search
    rw [e]
    cases b
    · obtain ⟨h1, h2⟩ := g2 rfl
      subst h1
      refine ⟨st', rfl, hi, ?_⟩
      intro x hx hs
      by_cases hxo : x = origin
      · subst hxo
        rcases hi.org with h | ⟨_, h | h⟩
        · exact h
        · cases h
        · exact h2 _ hx h.1
      · have h0 := hs.resolve_left hxo
        rcases hi.seen x hx hxo h0 with h | h
        · exact hi.done x hx hxo (by simp) h
        · exact h2 x hx h
    · have := g3 rfl
      exact search_spec E (by omega) g1

theorem init_inv (E : Env idx rays pts W) : Inv idx rays pts W none (St.init idx) := by
  have hv : ∀ x ∈ pts, (St.init idx).valid (idx x) = if x = origin then 2 else 0 := fun x hx => upd_idx E E.org hx (fun _ => 0) 2
  refine ⟨fun x _ _ h => absurd rfl h, ?_, fun x _ _ h => absurd rfl h, fun x _ _ h => absurd rfl h, ?_, .inr ⟨rfl, .inr ⟨?_, fun _ _ _ => rfl⟩⟩, Nat.zero_le _⟩
  · intro x hx hxo _
    rw [hv x hx, if_neg hxo]
  · intro x hx hxo _ h
    rw [hv x hx, if_neg hxo] at h
    cases h
  · rw [hv _ E.org, if_pos rfl]

theorem todo_init : todo idx pts W (St.init idx) = pts.length * (pts.length * W + 1) := by
  unfold todo
  have : ∀ l : List Vertex, (l.map fun x => if (St.init idx).pweight (idx x) = 0 then pts.length * W + 1 else (St.init idx).pweight (idx x)).sum = l.length * (pts.length * W + 1) := by
    intro l
    induction l with
    | nil => simp
    | cons a l ih =>
      rw [List.map_cons, List.sum_cons, ih, List.length_cons, Nat.succ_mul]
      show (if (0 : Nat) = 0 then _ else _) + _ = _
      rw [if_pos rfl]; omega
  exact this pts

/-- Labels are not larger than the weight of any chain. -/
theorem Final.lower (E : Env idx rays pts W) {st : St} (h : Final idx rays pts W st) {l : List Vertex} {u : Vertex} {w : Nat} (hc : Chain rays origin l u w) :
    u = origin ∨ (st.pweight (idx u) ≠ 0 ∧ st.pweight (idx u) ≤ w) := by
  induction hc with
  | nil => exact .inl rfl
  | cons ha _ ih =>
    rename_i u x c l w _
    by_cases hu : u = origin
    · exact .inl hu
    · right
      have hx : x ∈ pts := E.ends _ _ _ ha.symm
      have hR := h.relaxed x hx (ih.imp id And.left) u c ha.symm hu
      refine ⟨hR.1, ?_⟩
      have : lab idx st x ≤ w := by
        rcases ih with h | h
        · rw [h, lab_origin]; exact Nat.zero_le _
        · unfold lab
          split
          · exact Nat.zero_le _
          · exact h.2
      omega

/-- Following the parents gives a chain whose weight is the label. -/
theorem Final.path (E : Env idx rays pts W) {st : St} (h : Final idx rays pts W st) : ∀ {k : Nat} {u : Vertex}, lab idx st u ≤ k → u ∈ pts →
    (u ≠ origin → st.pweight (idx u) ≠ 0) →
    ∃ l, Chain rays origin l u (lab idx st u) ∧ ∀ rem, getPath idx st rem u = if l.length ≤ rem then .ok l else .error .tooLong := by
  intro k
  induction k with
  | zero =>
    intro u hk hu h0
    have huo : u = origin := Classical.byContradiction fun hn => by
      have := h0 hn
      rw [lab_ne _ _ hn] at hk
      omega
    subst huo
    refine ⟨[], by rw [lab_origin]; exact .nil, fun rem => ?_⟩
    unfold getPath
    simp
  | succ k ih =>
    intro u hk hu h0
    by_cases huo : u = origin
    · subst huo
      refine ⟨[], by rw [lab_origin]; exact .nil, fun rem => ?_⟩
      unfold getPath
      simp
    · obtain ⟨h1, c, h2, h3⟩ := h.inv.parent u hu huo (h0 huo)
      have hp : par idx st u ∈ pts := E.ends _ _ _ h2
      have hc := (E.weight _ _ _ h2).1
      rw [lab_ne _ _ huo] at hk
      obtain ⟨l, g1, g2⟩ := ih (u := par idx st u) (by omega) hp h1
      have hR := (h.relaxed _ hp (by
        by_cases h : par idx st u = origin
        · exact .inl h
        · exact .inr (h1 h)) u c h2 huo).2
      refine ⟨par idx st u :: l, ?_, ?_⟩
      · rw [lab_ne _ _ huo, show st.pweight (idx u) = c + lab idx st (par idx st u) by omega]
        exact .cons h2.symm g1
      · intro rem
        unfold getPath
        rw [if_neg huo]
        cases rem with
        | zero => simp
        | succ rem =>
          have hv : st.valid (idx u) ≠ 0 := by
            rcases h.inv.seen u hu huo (h0 huo) with h | h <;> omega
          simp only
          rw [if_neg hv]
          have := g2 rem
          unfold par at this
          rw [this]
          by_cases hl : l.length ≤ rem
          · rw [if_pos hl, if_pos (by simpa using hl)]
            rfl
          · rw [if_neg hl, if_neg (by simpa using hl)]

end Verif.Oa
