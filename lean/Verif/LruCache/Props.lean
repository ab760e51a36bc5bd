import Verif.LruCache.Lemmas

/-!
# LRU cache properties (C07) and anchor position cache (C08)
-/

namespace Verif.LruCache

inductive Op where
  | alloc (k : BitVec 32)
  | get (k : BitVec 32)
deriving DecidableEq, Repr

/-- One call on the model; the result is the returned entry (`none`: NULL). -/
def step (fuel : Nat) (c : Cache) : Op → Except Err (Cache × Option Nat)
  | .alloc k => do
    let (c, e) ← allocate fuel c k
    pure (c, some e)
  | .get k => get fuel c k

/-- A call and the entry it returned. -/
abbrev Call := Op × Option Nat

/-- A sequence of calls; `h` is the history so far, newest call first. -/
def run (fuel : Nat) : Cache → List Call → List Op → Except Err (Cache × List Call)
  | c, h, [] => .ok (c, h)
  | c, h, op :: ops => do
    let (c, r) ← step fuel c op
    run fuel c ((op, r) :: h) ops

/-! ## Specification -/

/-- Keys in order of their most recent use (first occurrences). -/
def recent : List (BitVec 32) → List (BitVec 32)
  | [] => []
  | k :: l => k :: (recent l).filter (· ≠ k)

/-- The uses recorded by a history (newest first): every allocation, and every lookup of a key that
is among the `n` most recently used ones. -/
def uses (n : Nat) : List Call → List (BitVec 32)
  | [] => []
  | (.alloc k, _) :: h => k :: uses n h
  | (.get k, _) :: h => if k ∈ (recent (uses n h)).take n then k :: uses n h else uses n h

/-- What the cache should contain: the `n` most recently used keys, most recent first. -/
def contents (n : Nat) (h : List Call) : List (BitVec 32) := (recent (uses n h)).take n

/-- The entry returned by the latest allocation of `k`. -/
def lastAlloc (k : BitVec 32) : List Call → Option Nat
  | [] => none
  | (.alloc k', r) :: h => if k' = k then r else lastAlloc k h
  | (.get _, _) :: h => lastAlloc k h

/-- Proper use: a key is allocated only when the cache does not contain it. -/
def Disciplined (n : Nat) : List Call → Prop
  | [] => True
  | (.alloc k, _) :: h => k ∉ contents n h ∧ Disciplined n h
  | (.get _, _) :: h => Disciplined n h

/-! ## Lists -/

theorem recent_nodup : ∀ l : List (BitVec 32), (recent l).Nodup
  | [] => List.nodup_nil
  | k :: l => List.nodup_cons.mpr ⟨by simp, (recent_nodup l).filter _⟩

theorem take_filter_not_mem {α : Type} [DecidableEq α] (k : α) : ∀ (m : Nat) (l : List α),
    k ∉ l.take m → (l.filter (· ≠ k)).take m = l.take m
  | 0, _, _ => by simp
  | m + 1, [], _ => by simp
  | m + 1, x :: l, h => by
    simp only [List.take_succ_cons, List.mem_cons, not_or] at h
    rw [List.filter_cons_of_pos (by simpa using Ne.symm h.1), List.take_succ_cons,
      List.take_succ_cons, take_filter_not_mem k m l h.2]

theorem take_filter_mem {α : Type} [DecidableEq α] (k : α) : ∀ (m : Nat) (l : List α), l.Nodup →
    k ∈ l.take (m + 1) → (l.filter (· ≠ k)).take m = (l.take (m + 1)).filter (· ≠ k)
  | m, [], _, h => by simp at h
  | m, x :: l, hn, h => by
    simp only [List.take_succ_cons, List.mem_cons] at h
    simp only [List.nodup_cons] at hn
    by_cases hx : x = k
    · subst hx
      rw [List.filter_cons_of_neg (by simp), List.take_succ_cons, List.filter_cons_of_neg (by simp)]
      rw [List.filter_eq_self.mpr, List.filter_eq_self.mpr]
      · intro a ha; have := List.mem_of_mem_take ha; simp; rintro rfl; exact hn.1 this
      · intro a ha; simp; rintro rfl; exact hn.1 ha
    · have h' : k ∈ l.take m := by
        rcases h with h | h
        · exact absurd h.symm hx
        · exact h
      cases m with
      | zero => simp at h'
      | succ m =>
        rw [List.filter_cons_of_pos (by simpa using hx), List.take_succ_cons,
          List.take_succ_cons, List.filter_cons_of_pos (by simpa using hx),
          take_filter_mem k m l hn.2 h']

theorem contents_alloc (n : Nat) (hn : 0 < n) (k : BitVec 32) (r : Option Nat) (h : List Call)
    (hk : k ∉ contents n h) : contents n ((.alloc k, r) :: h) = k :: (contents n h).take (n - 1) := by
  obtain ⟨m, rfl⟩ : ∃ m, n = m + 1 := ⟨n - 1, by omega⟩
  unfold contents at *
  simp only [uses, recent, List.take_succ_cons, Nat.add_sub_cancel, List.take_take]
  rw [take_filter_not_mem, Nat.min_eq_left (by omega)]
  intro hm
  exact hk ((List.take_subset_take_left _ (by omega : m ≤ m + 1)) hm)

theorem contents_get_hit (n : Nat) (k : BitVec 32) (r : Option Nat) (h : List Call)
    (hk : k ∈ contents n h) :
    contents n ((.get k, r) :: h) = k :: (contents n h).filter (· ≠ k) := by
  cases n with
  | zero => simp [contents] at hk
  | succ m =>
    unfold contents at *
    simp only [uses, if_pos hk, recent, List.take_succ_cons]
    rw [take_filter_mem k m _ (recent_nodup _) hk]

theorem contents_get_miss (n : Nat) (k : BitVec 32) (r : Option Nat) (h : List Call)
    (hk : k ∉ contents n h) : contents n ((.get k, r) :: h) = contents n h := by
  unfold contents at *
  simp only [uses, if_neg hk]

/-- A list of pairs with distinct keys: the first pair with key `k` splits it. -/
theorem split_key {l : List (Nat × BitVec 32)} {k : BitVec 32} (hk : k ∈ l.map Prod.snd)
    (hn : (l.map Prod.snd).Nodup) :
    ∃ a e b, l = a ++ (e, k) :: b ∧ (∀ p ∈ a, p.2 ≠ k) ∧ (∀ p ∈ b, p.2 ≠ k) := by
  obtain ⟨p, hp, rfl⟩ := List.mem_map.mp hk
  obtain ⟨a, b, rfl⟩ := List.append_of_mem hp
  refine ⟨a, p.1, b, rfl, ?_, ?_⟩
  · intro q hq he
    simp only [List.map_append, List.map_cons, List.nodup_append, List.mem_map, List.mem_cons] at hn
    exact hn.2.2 q.2 ⟨q, hq, rfl⟩ p.2 (Or.inl rfl) he
  · intro q hq he
    simp only [List.map_append, List.map_cons, List.nodup_append, List.nodup_cons, List.mem_map] at hn
    exact hn.2.1.1 ⟨q, hq, he⟩

/-! ## C07 -/

/-- The invariant tying the heap to the specification. -/
structure Inv (n : Nat) (c : Cache) (h : List Call) (used : List (Nat × BitVec 32)) (free : List Nat) :
    Prop where
  rel : Rel n c used free
  keys : used.map Prod.snd = contents n h
  entries : ∀ p ∈ used, lastAlloc p.2 h = some p.1

theorem Inv.keysNodup {n : Nat} {c : Cache} {h : List Call} {used : List (Nat × BitVec 32)}
    {free : List Nat} (hi : Inv n c h used free) : (used.map Prod.snd).Nodup := by
  rw [hi.keys]; exact (recent_nodup _).sublist (List.take_sublist _ _)

theorem filter_ne_split {a b : List (Nat × BitVec 32)} {e : Nat} {k : BitVec 32}
    (ha : ∀ p ∈ a, p.2 ≠ k) (hb : ∀ p ∈ b, p.2 ≠ k) :
    ((a ++ (e, k) :: b).map Prod.snd).filter (· ≠ k) = (a ++ b).map Prod.snd := by
  rw [List.map_append, List.map_cons, List.filter_append, List.filter_cons_of_neg (by simp),
    List.map_append, List.filter_eq_self.mpr, List.filter_eq_self.mpr]
  · intro x hx; obtain ⟨p, hp, rfl⟩ := List.mem_map.mp hx; simpa using hb p hp
  · intro x hx; obtain ⟨p, hp, rfl⟩ := List.mem_map.mp hx; simpa using ha p hp

theorem get_step {n : Nat} {c : Cache} {h : List Call} {used : List (Nat × BitVec 32)}
    {free : List Nat} (hi : Inv n c h used free) (fuel : Nat) (hf : n ≤ fuel) (k : BitVec 32) :
    ∃ c' used' r, get fuel c k = .ok (c', r) ∧ Inv n c' ((.get k, r) :: h) used' free ∧
      r = if k ∈ contents n h then lastAlloc k h else none := by
  by_cases hk : k ∈ contents n h
  · have hk' : k ∈ used.map Prod.snd := by rw [hi.keys]; exact hk
    obtain ⟨a, e, b, hu, ha, hb⟩ := split_key hk' hi.keysNodup
    obtain ⟨c', hg, hr⟩ := get_hit hi.rel fuel hf k a b e hu ha
    refine ⟨c', (e, k) :: (a ++ b), some e, hg, ⟨hr, ?_, ?_⟩, ?_⟩
    · rw [contents_get_hit n k _ h hk, ← hi.keys, hu, filter_ne_split ha hb]; rfl
    · intro p hp
      simp only [lastAlloc]
      apply hi.entries
      rw [hu]
      simp only [List.mem_cons, List.mem_append] at hp ⊢
      tauto
    · rw [if_pos hk]
      exact (hi.entries (e, k) (by rw [hu]; simp)).symm
  · refine ⟨c, used, none, ?_, ⟨hi.rel, ?_, ?_⟩, by rw [if_neg hk]⟩
    · apply get_miss hi.rel fuel hf
      intro p hp he
      exact hk (by rw [← hi.keys, ← he]; exact List.mem_map_of_mem hp)
    · rw [contents_get_miss n k _ h hk, hi.keys]
    · intro p hp; exact hi.entries p hp

theorem alloc_step {n : Nat} {c : Cache} {h : List Call} {used : List (Nat × BitVec 32)}
    {free : List Nat} (hn : 2 ≤ n) (hi : Inv n c h used free) (fuel : Nat) (hf : n ≤ fuel)
    (k : BitVec 32) (hk : k ∉ contents n h) :
    ∃ c' used' free' e, allocate fuel c k = .ok (c', e) ∧
      Inv n c' ((.alloc k, some e) :: h) used' free' ∧ e < n ∧
      ((contents n h).length < n → ∀ k' ∈ contents n h, lastAlloc k' h ≠ some e) ∧
      (∀ k', (contents n h).length = n → (contents n h).getLast? = some k' → lastAlloc k' h = some e) := by
  have hlen := hi.rel.length
  have hcl : (contents n h).length = used.length := by rw [← hi.keys]; simp
  have hnk : ∀ p ∈ used, p.2 ≠ k := by
    intro p hp he
    exact hk (by rw [← hi.keys, ← he]; exact List.mem_map_of_mem hp)
  have hlt : ∀ e ∈ used.map Prod.fst ++ free, e < n := by
    intro e he; simpa using hi.rel.perm.mem_iff.mp he
  cases free with
  | cons f free =>
    obtain ⟨c', ha, hr⟩ := allocate_free hi.rel fuel k
    refine ⟨c', (f, k) :: used, free, f, ha, ⟨hr, ?_, ?_⟩, hlt f (by simp), ?_, ?_⟩
    · rw [contents_alloc n (by omega) k _ h hk, List.map_cons, hi.keys, List.take_of_length_le]
      simp at hlen; omega
    · intro p hp
      simp only [List.mem_cons] at hp
      rcases hp with rfl | hp
      · simp [lastAlloc]
      · simp only [lastAlloc]
        rw [if_neg (Ne.symm (hnk p hp))]; exact hi.entries p hp
    · intro _ k' hk' he
      rw [← hi.keys] at hk'
      obtain ⟨p, hp, rfl⟩ := List.mem_map.mp hk'
      rw [hi.entries p hp] at he
      injection he with he
      have := hi.rel.nodup
      rw [List.nodup_append] at this
      exact this.2.2 p.1 (List.mem_map_of_mem hp) f (by simp) he
    · intro k' h1; simp at hlen; omega
  | nil =>
    simp at hlen
    obtain ⟨u, used0, ⟨e, ke⟩, hu⟩ : ∃ u used0 p, used = u :: used0 ++ [p] := by
      match used, hlen with
      | [], h' => simp at h'; omega
      | [_], h' => simp at h'; omega
      | u :: v :: l, _ =>
        exact ⟨u, (v :: l).dropLast, (v :: l).getLast (by simp), by
          rw [List.cons_append, List.dropLast_append_getLast]⟩
    have hrel := hi.rel
    rw [hu] at hrel
    obtain ⟨c', ha, hr⟩ := allocate_full u e ke hrel fuel hf k
    have hlast : (contents n h).getLast? = some ke := by rw [← hi.keys, hu, List.map_append]; exact List.getLast?_concat
    refine ⟨c', (e, k) :: u :: used0, [], e, ha, ⟨hr, ?_, ?_⟩, ?_, ?_, ?_⟩
    · rw [contents_alloc n (by omega) k _ h hk, List.map_cons, ← hi.keys, hu]
      have : n - 1 = (u :: used0).length := by rw [hu] at hlen; simp at hlen ⊢; omega
      rw [this, List.map_append, List.take_append_of_le_length (by simp), List.take_of_length_le (by simp)]
    · intro p hp
      simp only [List.mem_cons] at hp
      have : p = (e, k) ∨ p ∈ used := by rw [hu]; simp; tauto
      rcases this with rfl | hp'
      · simp [lastAlloc]
      · simp only [lastAlloc]
        rw [if_neg (Ne.symm (hnk p hp'))]; exact hi.entries p hp'
    · exact hlt e (by rw [hu]; simp)
    · intro h'; omega
    · intro k' _ hk'
      rw [hlast] at hk'
      injection hk' with hk'
      subst hk'
      exact hi.entries (e, ke) (by rw [hu]; simp)

theorem run_inv (n fuel : Nat) (hn : 2 ≤ n) (hf : n ≤ fuel) (ops : List Op) :
    ∀ (c : Cache) (h : List Call) (used : List (Nat × BitVec 32)) (free : List Nat),
    Inv n c h used free →
    (∀ c' h', run fuel c h ops = .ok (c', h') → Disciplined n h' →
      ∃ used' free', Inv n c' h' used' free') := by
  induction ops with
  | nil =>
    intro c h used free hi c' h' hr _
    simp only [run, Except.ok.injEq, Prod.mk.injEq] at hr
    obtain ⟨rfl, rfl⟩ := hr
    exact ⟨used, free, hi⟩
  | cons op ops ih =>
    intro c h used free hi c' h' hr hd
    have dsuffix : ∀ (ops : List Op) (c : Cache) (h : List Call) c' h', run fuel c h ops = .ok (c', h') →
        Disciplined n h' → Disciplined n h := by
      intro ops
      induction ops with
      | nil =>
        intro c h c' h' hr hd
        simp only [run, Except.ok.injEq, Prod.mk.injEq] at hr
        exact hr.2 ▸ hd
      | cons op ops ih =>
        intro c h c' h' hr hd
        simp only [run] at hr
        cases hs : step fuel c op with
        | error e => rw [hs] at hr; cases hr
        | ok r =>
          rw [hs] at hr
          have := ih _ _ _ _ hr hd
          cases op <;> simp [Disciplined] at this
          · exact this.2
          · exact this
    simp only [run] at hr
    cases op with
    | get k =>
      obtain ⟨c1, used1, r, hg, hi1, -⟩ := get_step hi fuel hf k
      rw [show step fuel c (.get k) = .ok (c1, r) from hg] at hr
      exact ih _ _ _ _ hi1 _ _ hr hd
    | alloc k =>
      cases hs : step fuel c (.alloc k) with
      | error e => rw [hs] at hr; cases hr
      | ok r =>
        rw [hs] at hr
        have hk := dsuffix _ _ _ _ _ hr hd
        simp only [Disciplined] at hk
        obtain ⟨c1, used1, free1, e, ha, hi1, -⟩ := alloc_step hn hi fuel hf k hk.1
        have : step fuel c (.alloc k) = .ok (c1, some e) := by
          simp only [step, ha]; rfl
        rw [this] at hs
        injection hs with hs
        subst hs
        exact ih _ _ _ _ hi1 _ _ hr hd

/-- C07: for a cache initialised with `n ≥ 2` entries, after any history `h` of calls in which keys are
allocated only when absent:

* a further `get k` terminates without invalid access, and returns the entry of the latest allocation
  of `k` if `k` is among the `n` most recently used keys, and NULL otherwise;
* a further `allocate k` terminates without invalid access and returns an entry of the array which,
  when the cache is not full, belongs to no cached key, and when it is full is the entry of the least
  recently used key. -/
theorem lru_correct (n fuel : Nat) (hn : 2 ≤ n) (hf : n ≤ fuel) (c0 c1 c : Cache) (ops : List Op)
    (h : List Call) (hinit : cacheInit c0 n = .ok c1) (hr : run fuel c1 [] ops = .ok (c, h))
    (hd : Disciplined n h) :
    (∀ k, ∃ c', get fuel c k = .ok (c', if k ∈ contents n h then lastAlloc k h else none)) ∧
    (∀ k ∈ contents n h, ∃ e, lastAlloc k h = some e ∧ e < n) ∧
    (∀ k, k ∉ contents n h → ∃ c' e, allocate fuel c k = .ok (c', e) ∧ e < n ∧
      ((contents n h).length < n → ∀ k' ∈ contents n h, lastAlloc k' h ≠ some e) ∧
      (∀ k', (contents n h).length = n → (contents n h).getLast? = some k' → lastAlloc k' h = some e)) := by
  obtain ⟨c1', hc1, hrel⟩ := init_rel c0 n (by omega)
  rw [hinit] at hc1
  injection hc1 with hc1
  subst hc1
  have hi0 : Inv n c1 [] [] (List.range n) := ⟨hrel, by simp [contents, uses, recent], by simp⟩
  obtain ⟨used, free, hi⟩ := run_inv n fuel hn hf ops c1 [] [] _ hi0 c h hr hd
  refine ⟨?_, ?_, ?_⟩
  · intro k
    obtain ⟨c', used', r, hg, -, hr⟩ := get_step hi fuel hf k
    exact ⟨c', hr ▸ hg⟩
  · intro k hk
    rw [← hi.keys] at hk
    obtain ⟨p, hp, rfl⟩ := List.mem_map.mp hk
    refine ⟨p.1, hi.entries p hp, ?_⟩
    have := hi.rel.perm.mem_iff.mp (List.mem_append_left free (List.mem_map_of_mem (f := Prod.fst) hp))
    simpa using this
  · intro k hk
    obtain ⟨c', used', free', e, ha, -, h1, h2, h3⟩ := alloc_step hn hi fuel hf k hk
    exact ⟨c', e, ha, h1, h2, h3⟩

/-- C07: no entry is lost, duplicated or leaked, and no call fails or loops: any sequence of calls
(even allocating a key twice) terminates without invalid access, and afterwards the two lists
together are a permutation of all entries. -/
theorem lru_no_leak (n fuel : Nat) (hn : 2 ≤ n) (hf : n ≤ fuel) (c0 c1 : Cache) (ops : List Op)
    (hinit : cacheInit c0 n = .ok c1) :
    ∃ c h used free, run fuel c1 [] ops = .ok (c, h) ∧ IsList c.next c.used used ∧
      IsList c.next c.free free ∧ (used ++ free).Perm (List.range n) := by
  obtain ⟨c1', hc1, hrel⟩ := init_rel c0 n (by omega)
  rw [hinit] at hc1
  injection hc1 with hc1
  subst hc1
  have key : ∀ (ops : List Op) (c : Cache) (h : List Call) (used : List (Nat × BitVec 32)) (free : List Nat),
      Rel n c used free → ∃ c' h' used' free', run fuel c h ops = .ok (c', h') ∧ Rel n c' used' free' := by
    intro ops
    induction ops with
    | nil => intro c h used free hr; exact ⟨c, h, used, free, rfl, hr⟩
    | cons op ops ih =>
      intro c h used free hr
      have hs : ∃ c' r used' free', step fuel c op = .ok (c', r) ∧ Rel n c' used' free' := by
        cases op with
        | get k =>
          by_cases hk : ∃ p ∈ used, p.2 = k
          · have : ∃ a e b, used = a ++ (e, k) :: b ∧ ∀ p ∈ a, p.2 ≠ k := by
              clear hr ih
              induction used with
              | nil => simp at hk
              | cons x l ih =>
                by_cases hx : x.2 = k
                · exact ⟨[], x.1, l, by simp [← hx], by simp⟩
                · obtain ⟨p, hp, hpk⟩ := hk
                  simp only [List.mem_cons] at hp
                  obtain ⟨a, e, b, h1, h2⟩ := ih ⟨p, by
                    rcases hp with rfl | hp
                    · exact absurd hpk hx
                    · exact hp, hpk⟩
                  refine ⟨x :: a, e, b, by simp [h1], ?_⟩
                  intro q hq; simp only [List.mem_cons] at hq
                  rcases hq with rfl | hq
                  · exact hx
                  · exact h2 q hq
            obtain ⟨a, e, b, hu, ha⟩ := this
            obtain ⟨c', hg, hr'⟩ := get_hit hr fuel hf k a b e hu ha
            exact ⟨c', _, _, _, hg, hr'⟩
          · exact ⟨c, _, _, _, get_miss hr fuel hf k (fun p hp he => hk ⟨p, hp, he⟩), hr⟩
        | alloc k =>
          cases free with
          | cons f free =>
            obtain ⟨c', ha, hr'⟩ := allocate_free hr fuel k
            exact ⟨c', some f, _, _, by simp only [step, ha]; rfl, hr'⟩
          | nil =>
            have hlen := hr.length
            simp at hlen
            obtain ⟨u, used0, ⟨e, ke⟩, hu⟩ : ∃ u used0 p, used = u :: used0 ++ [p] := by
              match used, hlen with
              | [], h' => simp at h'; omega
              | [_], h' => simp at h'; omega
              | u :: v :: l, _ =>
                exact ⟨u, (v :: l).dropLast, (v :: l).getLast (by simp), by
                  rw [List.cons_append, List.dropLast_append_getLast]⟩
            subst hu
            obtain ⟨c', ha, hr'⟩ := allocate_full u e ke hr fuel hf k
            exact ⟨c', some e, _, _, by simp only [step, ha]; rfl, hr'⟩
      obtain ⟨c', r, used', free', hs, hr'⟩ := hs
      obtain ⟨c2, h2, u2, f2, h3, h4⟩ := ih c' ((op, r) :: h) used' free' hr'
      exact ⟨c2, h2, u2, f2, by simp only [run, hs]; exact h3, h4⟩
  obtain ⟨c, h, used, free, h1, h2⟩ := key ops c1 [] [] _ hrel
  exact ⟨c, h, used.map Prod.fst, free, h1, h2.isUsed, h2.isFree, h2.perm⟩

def blank : Cache := ⟨fun _ => none, fun _ => 0, none, none⟩

/-- A full cache of two entries in which a lookup changed the eviction order. -/
example : ∃ c1 c h, cacheInit blank 2 = .ok c1 ∧
    run 2 c1 [] [.alloc 10, .alloc 20, .get 10, .alloc 30, .get 20, .get 10] = .ok (c, h) ∧
    h = [(.get 10, some 0), (.get 20, none), (.alloc 30, some 1), (.get 10, some 0),
      (.alloc 20, some 1), (.alloc 10, some 0)] ∧ Disciplined 2 h := by
  refine ⟨_, _, _, rfl, rfl, rfl, ?_⟩
  simp [Disciplined, contents, uses, recent]

/-- C07 excludes capacity 1 for a reason: evicting from a full one-entry cache makes the entry its own
successor, and a later lookup of an absent key never terminates, whatever the number of iterations
allowed. -/
theorem capacity_one_loops (fuel : Nat) (hf : 1 ≤ fuel) :
    ∃ c1 c2 c3 e, cacheInit blank 1 = .ok c1 ∧ allocate fuel c1 10 = .ok (c2, 0) ∧
      allocate fuel c2 20 = .ok (c3, e) ∧ ∀ f, get f c3 30 = .error .fuel := by
  obtain ⟨f, rfl⟩ : ∃ f, fuel = f + 1 := ⟨fuel - 1, by omega⟩
  refine ⟨_, _, _, _, rfl, rfl, rfl, ?_⟩
  have key : ∀ (f : Nat) (prev : Option Nat) (next : Nat → Option Nat) (key : Nat → BitVec 32),
      next 0 = some 0 → key 0 = 20 → findLoop next key 30 f prev (some 0) = .error .fuel := by
    intro f
    induction f with
    | zero => intros; rfl
    | succ f ih =>
      intro prev next key h1 h2
      simp only [findLoop, h2, h1]
      rw [if_neg (by decide)]
      exact ih _ _ _ h1 h2
  have key' : ∀ (f : Nat) (c : Cache), c.used = some 0 → c.next 0 = some 0 → c.key 0 = 20 →
      get f c 30 = .error .fuel := by
    intro f c h1 h2 h3
    unfold get
    rw [h1, key f _ _ _ h2 h3]
    rfl
  intro f
  exact key' f _ rfl rfl rfl

/-- With no entries, initialisation writes outside the array. -/
theorem capacity_zero_invalid (c : Cache) : cacheInit c 0 = .error .invalid := rfl

/-- Without the discipline a key can occupy several entries: allocating twice fills the cache. -/
theorem duplicate_allocation :
    (do let c1 ← cacheInit blank 2
        let r ← run 2 c1 [] [.alloc 10, .alloc 20, .alloc 20, .get 10]
        pure (r.2.head?.map Prod.snd) : Except Err _) = .ok (some none) := rfl

/-! ## C08: anchor positions -/

inductive AOp (Pos : Type) where
  | msg (addr : BitVec 16) (pos : Pos)
  | lookup (addr : BitVec 16)

/-- Keys used, newest first: every message, and every lookup that finds its anchor. -/
def ausesAux {Pos : Type} : List (AOp Pos) → List (BitVec 16)
  | [] => []
  | .msg a _ :: h => a :: ausesAux h
  | .lookup a :: h =>
    if (a.setWidth 32) ∈ (recent ((ausesAux h).map (·.setWidth 32))).take 5 then a :: ausesAux h else ausesAux h

/-- The five most recently used anchors (as 32-bit keys). -/
def known {Pos : Type} (h : List (AOp Pos)) : List (BitVec 32) :=
  (recent ((ausesAux h).map (·.setWidth 32))).take 5

/-- Position of the latest message of an anchor. -/
def latest {Pos : Type} (a : BitVec 16) : List (AOp Pos) → Option Pos
  | [] => none
  | .msg a' p :: h => if a' = a then some p else latest a h
  | .lookup _ :: h => latest a h

def astep {Pos : Type} (s : Anchors Pos) : AOp Pos → Except Err (Anchors Pos)
  | .msg a p => handleMsg s a p
  | .lookup a => do
    let r ← lookup s a
    pure r.1

/-- Run, newest operation first. -/
def arun {Pos : Type} : List (AOp Pos) → Except Err (Anchors Pos)
  | [] => anchorsInit Pos
  | op :: h => do
    let s ← arun h
    astep s op

theorem setWidth_inj {a b : BitVec 16} (h : a.setWidth 32 = b.setWidth 32) : a = b := by
  apply BitVec.eq_of_toNat_eq
  have := congrArg BitVec.toNat h
  simpa [BitVec.toNat_setWidth, Nat.mod_eq_of_lt (show a.toNat < 2^32 by omega),
    Nat.mod_eq_of_lt (show b.toNat < 2^32 by omega)] using this

/-- The calls the anchor cache makes on the LRU cache, with results left out. -/
structure AInv {Pos : Type} (s : Anchors Pos) (h : List (AOp Pos)) (used : List (Nat × BitVec 32))
    (free : List Nat) : Prop where
  rel : Rel 5 s.cache used free
  keys : used.map Prod.snd = known h
  content : ∀ e a, (e, BitVec.setWidth 32 a) ∈ used → s.content e = latest a h ∧ (latest a h).isSome
  addr : ∀ p ∈ used, ∃ a : BitVec 16, p.2 = a.setWidth 32

theorem AInv.keysNodup {Pos : Type} {s : Anchors Pos} {h : List (AOp Pos)}
    {used : List (Nat × BitVec 32)} {free : List Nat} (hi : AInv s h used free) :
    (used.map Prod.snd).Nodup := by
  rw [hi.keys]; exact (recent_nodup _).sublist (List.take_sublist _ _)

theorem known_hit {Pos : Type} {a : BitVec 16} {h : List (AOp Pos)} (op : AOp Pos)
    (hu : ausesAux (op :: h) = a :: ausesAux h) (hk : a.setWidth 32 ∈ known h) :
    known (op :: h) = a.setWidth 32 :: (known h).filter (· ≠ a.setWidth 32) := by
  unfold known at *
  rw [hu, List.map_cons, recent, List.take_succ_cons, take_filter_mem _ 4 _ (recent_nodup _) hk]

theorem known_new {Pos : Type} {a : BitVec 16} {h : List (AOp Pos)} (op : AOp Pos)
    (hu : ausesAux (op :: h) = a :: ausesAux h) (hk : a.setWidth 32 ∉ known h) :
    known (op :: h) = a.setWidth 32 :: (known h).take 4 := by
  unfold known at *
  rw [hu, List.map_cons, recent, List.take_succ_cons, take_filter_not_mem, List.take_take]
  · rfl
  · intro hm
    exact hk ((List.take_subset_take_left _ (by omega : 4 ≤ 5)) hm)

theorem fst_unique {used : List (Nat × BitVec 32)} {free : List Nat} {c : Cache} {n : Nat}
    (hr : Rel n c used free) {p q : Nat × BitVec 32} (hp : p ∈ used) (hq : q ∈ used)
    (h : p.1 = q.1) : p = q := by
  have := (List.nodup_append.mp hr.nodup).1
  exact List.inj_on_of_nodup_map this hp hq h

theorem arun_inv {Pos : Type} (h : List (AOp Pos)) :
    ∃ s used free, arun h = .ok s ∧ AInv s h used free := by
  induction h with
  | nil =>
    obtain ⟨c, hc, hr⟩ := init_rel ⟨fun _ => none, fun _ => 0, none, none⟩ 5 (by omega)
    refine ⟨⟨c, fun _ => none⟩, [], List.range 5, ?_, ⟨hr, by simp [known, ausesAux, recent], by simp, by simp⟩⟩
    simp only [arun, anchorsInit, cacheEntries, hc]
    rfl
  | cons op h ih =>
    obtain ⟨s, used, free, hs, hi⟩ := ih
    simp only [arun, hs]
    cases op with
    | lookup a =>
      by_cases hk : a.setWidth 32 ∈ known h
      · have hk' : a.setWidth 32 ∈ used.map Prod.snd := by rw [hi.keys]; exact hk
        obtain ⟨x, e, y, hu, hx, hy⟩ := split_key hk' hi.keysNodup
        obtain ⟨c', hg, hr⟩ := get_hit hi.rel 5 (by omega) _ x y e hu hx
        have hau : ausesAux (.lookup a :: h) = a :: ausesAux h := by
          simp only [ausesAux]; exact if_pos hk
        refine ⟨⟨c', s.content⟩, (e, a.setWidth 32) :: (x ++ y), free, ?_, ⟨hr, ?_, ?_, ?_⟩⟩
        · show astep s (.lookup a) = _
          simp only [astep, lookup, cacheEntries, hg]
          rfl
        · rw [known_hit _ hau hk, ← hi.keys, hu, filter_ne_split hx hy]; rfl
        · intro e' a' hm
          apply hi.content
          rw [hu]; simp only [List.mem_cons, List.mem_append] at hm ⊢; tauto
        · intro p hp
          apply hi.addr
          rw [hu]; simp only [List.mem_cons, List.mem_append] at hp ⊢; tauto
      · have hau : ausesAux (.lookup a :: h) = ausesAux h := by
          simp only [ausesAux]; exact if_neg hk
        refine ⟨s, used, free, ?_, ⟨hi.rel, ?_, ?_, hi.addr⟩⟩
        · have := get_miss hi.rel 5 (by omega) (a.setWidth 32) (fun p hp he =>
            hk (by rw [← hi.keys, ← he]; exact List.mem_map_of_mem hp))
          show astep s (.lookup a) = _
          simp only [astep, lookup, cacheEntries, this]
          rfl
        · rw [hi.keys]; unfold known; rw [hau]
        · intro e' a' hm; exact hi.content e' a' hm
    | msg a p =>
      have hau : ausesAux (.msg a p :: h) = a :: ausesAux h := rfl
      have hlat : ∀ a', latest a' (.msg a p :: h) = if a = a' then some p else latest a' h := fun _ => rfl
      by_cases hk : a.setWidth 32 ∈ known h
      · have hk' : a.setWidth 32 ∈ used.map Prod.snd := by rw [hi.keys]; exact hk
        obtain ⟨x, e, y, hu, hx, hy⟩ := split_key hk' hi.keysNodup
        obtain ⟨c', hg, hr⟩ := get_hit hi.rel 5 (by omega) _ x y e hu hx
        refine ⟨⟨c', set s.content e (some p)⟩, (e, a.setWidth 32) :: (x ++ y), free, ?_, ⟨hr, ?_, ?_, ?_⟩⟩
        · show astep s (.msg a p) = _
          simp only [astep, handleMsg, cacheEntries, hg]
          rfl
        · rw [known_hit _ hau hk, ← hi.keys, hu, filter_ne_split hx hy]; rfl
        · intro e' a' hm
          have hm' : (e', a'.setWidth 32) ∈ used := by
            rw [hu]; simp only [List.mem_cons, List.mem_append] at hm ⊢; tauto
          rw [hlat]
          by_cases haa : a = a'
          · subst haa
            have : e' = e := by
              simp only [List.mem_cons, List.mem_append, Prod.mk.injEq] at hm
              rcases hm with hm | hm | hm
              · exact hm.1
              · exact absurd rfl (hx _ hm)
              · exact absurd rfl (hy _ hm)
            subst this
            simp [set]
          · have : e' ≠ e := by
              rintro rfl
              have := fst_unique hi.rel hm' (by rw [hu]; simp : (e', a.setWidth 32) ∈ used) rfl
              exact haa (setWidth_inj (congrArg Prod.snd this).symm)
            simp only [set, if_neg this, if_neg haa]
            exact hi.content e' a' hm'
        · intro q hq
          apply hi.addr
          rw [hu]; simp only [List.mem_cons, List.mem_append] at hq ⊢; tauto
      · have hnk : ∀ q ∈ used, q.2 ≠ a.setWidth 32 := fun q hq he =>
          hk (by rw [← hi.keys, ← he]; exact List.mem_map_of_mem hq)
        have hmiss := get_miss hi.rel 5 (by omega) (a.setWidth 32) hnk
        have hlen := hi.rel.length
        have hal : ∃ c' e used0 free', allocate 5 s.cache (a.setWidth 32) = .ok (c', e) ∧
            Rel 5 c' ((e, a.setWidth 32) :: used0) free' ∧ (∀ q ∈ used0, q ∈ used) ∧
            used0.map Prod.snd = (known h).take 4 := by
          cases free with
          | cons f free =>
            obtain ⟨c', ha, hr⟩ := allocate_free hi.rel 5 (a.setWidth 32)
            refine ⟨c', f, used, free, ha, hr, fun q hq => hq, ?_⟩
            rw [hi.keys, List.take_of_length_le]
            rw [← hi.keys]; simp at hlen ⊢; omega
          | nil =>
            simp at hlen
            obtain ⟨u, used0, ⟨e, ke⟩, hu⟩ : ∃ u used0 p, used = u :: used0 ++ [p] := by
              match used, hlen with
              | u :: v :: l, _ =>
                exact ⟨u, (v :: l).dropLast, (v :: l).getLast (by simp), by
                  rw [List.cons_append, List.dropLast_append_getLast]⟩
            have hrel := hi.rel
            rw [hu] at hrel
            obtain ⟨c', ha, hr⟩ := allocate_full u e ke hrel 5 (by omega) (a.setWidth 32)
            refine ⟨c', e, u :: used0, [], ha, hr, ?_, ?_⟩
            · intro q hq; rw [hu]; simp at hq ⊢; tauto
            · rw [← hi.keys, hu]
              have : 4 = (u :: used0).length := by rw [hu] at hlen; simp at hlen ⊢; omega
              rw [this, List.map_append, List.take_append_of_le_length (by simp), List.take_of_length_le (by simp)]
        obtain ⟨c', e, used0, free', ha, hr, hsub, hkeys⟩ := hal
        refine ⟨⟨c', set s.content e (some p)⟩, (e, a.setWidth 32) :: used0, free', ?_, ⟨hr, ?_, ?_, ?_⟩⟩
        · show astep s (.msg a p) = _
          have : (do let (c, entry) ← (Except.ok (s.cache, none) : Except Err (Cache × Option Nat))
                     let (c, e) ← match entry with
                       | none => allocate 5 c (a.setWidth 32)
                       | some e => pure (c, e)
                     pure (⟨c, set s.content e (some p)⟩ : Anchors Pos)) = .ok ⟨c', set s.content e (some p)⟩ := by
            show (do let (c, e) ← allocate 5 s.cache (a.setWidth 32)
                     pure (⟨c, set s.content e (some p)⟩ : Anchors Pos)) = _
            rw [ha]; rfl
          simp only [astep, handleMsg, cacheEntries, hmiss]
          exact this
        · rw [known_new _ hau hk, List.map_cons, hkeys]
        · intro e' a' hm
          rw [hlat]
          simp only [List.mem_cons, Prod.mk.injEq] at hm
          by_cases haa : a = a'
          · subst haa
            have : e' = e := by
              rcases hm with hm | hm
              · exact hm.1
              · exact absurd rfl (hnk _ (hsub _ hm))
            subst this
            simp [set]
          · have hm' : (e', a'.setWidth 32) ∈ used0 := by
              rcases hm with hm | hm
              · exact absurd (setWidth_inj hm.2).symm haa
              · exact hm
            have : e' ≠ e := by
              rintro rfl
              have := fst_unique hr (List.mem_cons_of_mem _ hm') (List.mem_cons_self ..) rfl
              exact haa (setWidth_inj (congrArg Prod.snd this).symm)
            simp only [set, if_neg this, if_neg haa]
            exact hi.content e' a' (hsub _ hm')
        · intro q hq
          simp only [List.mem_cons] at hq
          rcases hq with rfl | hq
          · exact ⟨a, rfl⟩
          · exact hi.addr q (hsub q hq)

/-- C08: after any sequence of position messages and lookups, a lookup never fails, returns NULL
unless the anchor is among the five most recently used ones, and then returns the position of the
anchor's latest message. -/
theorem anchor_lookup {Pos : Type} (h : List (AOp Pos)) (a : BitVec 16) :
    ∃ s s', arun h = .ok s ∧
      lookup s a = .ok (s', if a.setWidth 32 ∈ known h then some (latest a h) else none) ∧
      (a.setWidth 32 ∈ known h → (latest a h).isSome) := by
  obtain ⟨s, used, free, hs, hi⟩ := arun_inv h
  by_cases hk : a.setWidth 32 ∈ known h
  · have hk' : a.setWidth 32 ∈ used.map Prod.snd := by rw [hi.keys]; exact hk
    obtain ⟨x, e, y, hu, hx, hy⟩ := split_key hk' hi.keysNodup
    obtain ⟨c', hg, hr⟩ := get_hit hi.rel 5 (by omega) _ x y e hu hx
    have hc := hi.content e a (by rw [hu]; simp)
    refine ⟨s, ⟨c', s.content⟩, hs, ?_, fun _ => hc.2⟩
    · unfold lookup
      simp only [cacheEntries, hg]
      rw [if_pos hk, ← hc.1]
      rfl
  · have := get_miss hi.rel 5 (by omega) (a.setWidth 32) (fun p hp he =>
      hk (by rw [← hi.keys, ← he]; exact List.mem_map_of_mem hp))
    refine ⟨s, s, hs, ?_, fun h' => absurd h' hk⟩
    unfold lookup
    simp only [cacheEntries, this]
    rw [if_neg hk]
    rfl

/-- C08, in the words of the claim: if the anchor sent a message and at most four other anchors were
used after it, it is still known. `newer` is the part of the history after that message. -/
theorem known_of_few_others {Pos : Type} (newer older : List (AOp Pos)) (a : BitVec 16) (p : Pos)
    (others : List (BitVec 16)) (hlen : others.length ≤ 4)
    (hn : ∀ op ∈ newer, match op with
      | .msg b _ => b = a ∨ b ∈ others
      | .lookup b => b = a ∨ b ∈ others) :
    a.setWidth 32 ∈ known (newer ++ .msg a p :: older) := by
  -- the uses newer than the message are all `a` or one of `others`
  have huses : ∃ l, ausesAux (newer ++ .msg a p :: older) = l ++ a :: ausesAux older ∧
      ∀ b ∈ l, b = a ∨ b ∈ others := by
    induction newer with
    | nil => exact ⟨[], rfl, by simp⟩
    | cons op newer ih =>
      obtain ⟨l, h1, h2⟩ := ih (fun op hop => hn op (by simp [hop]))
      have hop := hn op (by simp)
      cases op with
      | msg b q =>
        exact ⟨b :: l, by simp [ausesAux, h1], by simpa using ⟨hop, h2⟩⟩
      | lookup b =>
        simp only [List.cons_append, ausesAux]
        split
        · exact ⟨b :: l, by simp [h1], by simpa using ⟨hop, h2⟩⟩
        · exact ⟨l, h1, h2⟩
  obtain ⟨l, h1, h2⟩ := huses
  unfold known
  rw [h1]
  -- the first occurrence of `a` is preceded only by distinct elements of `others`
  have key : ∀ (l r : List (BitVec 32)) (k : BitVec 32),
      ∃ x y, recent (l ++ k :: r) = x ++ k :: y ∧ (∀ b ∈ x, b ∈ l ∧ b ≠ k) ∧ x.Nodup := by
    intro l r k
    induction l with
    | nil => exact ⟨[], _, rfl, by simp, List.nodup_nil⟩
    | cons b l ih =>
      obtain ⟨x, y, hx, hm, hnd⟩ := ih
      by_cases hb : b = k
      · subst hb
        exact ⟨[], _, rfl, by simp, List.nodup_nil⟩
      · refine ⟨b :: x.filter (· ≠ b), y.filter (· ≠ b), ?_, ?_, ?_⟩
        · simp only [List.cons_append, recent, hx, List.filter_append]
          rw [List.filter_cons_of_pos (by simpa using Ne.symm hb)]
        · intro c hc
          simp only [List.mem_cons, List.mem_filter] at hc
          rcases hc with rfl | hc
          · exact ⟨by simp, hb⟩
          · exact ⟨by simp [(hm c hc.1).1], (hm c hc.1).2⟩
        · rw [List.nodup_cons]; exact ⟨by simp, hnd.filter _⟩
  obtain ⟨x, y, hx, hm, hnd⟩ := key (l.map (·.setWidth 32)) ((ausesAux older).map (·.setWidth 32)) (a.setWidth 32)
  rw [List.map_append, List.map_cons, hx]
  have hxl : x.length ≤ others.length := by
    have : x ⊆ others.map (·.setWidth 32) := by
      intro b hb
      obtain ⟨h3, h4⟩ := hm b hb
      obtain ⟨b', h5, rfl⟩ := List.mem_map.mp h3
      rcases h2 b' h5 with rfl | h6
      · exact absurd rfl h4
      · exact List.mem_map_of_mem h6
    simpa using (List.subperm_of_subset hnd this).length_le
  rw [List.mem_iff_getElem?]
  refine ⟨x.length, ?_⟩
  rw [List.getElem?_take_of_lt (by omega), List.getElem?_append_right (Nat.le_refl _)]
  simp

/-- Anchors never heard of are never returned. -/
theorem unknown_anchor {Pos : Type} (h : List (AOp Pos)) (a : BitVec 16) (hl : latest a h = none) :
    a.setWidth 32 ∉ known h := by
  intro hk
  obtain ⟨s, s', -, -, h3⟩ := anchor_lookup h a
  simpa [hl] using h3 hk

/-- Six anchors: the one not used for longest is forgotten, the others keep their positions. -/
example : (do let s ← arun (Pos := Nat) [.msg 6 60, .lookup 1, .msg 5 50, .msg 4 40, .msg 3 30, .msg 2 20, .msg 1 10]
              let r1 ← lookup s 1
              let r2 ← lookup s 2
              pure (r1.2, r2.2) : Except Err _) = .ok (some (some 10), none) := rfl

/-- A weakness outside the claim: `anchor_position_cache_get` returns a pointer into the cache that the
caller reads after the lock is released. If five messages of other anchors arrive in between, the
pointer obtained for anchor 1 refers to the position of anchor 6. -/
theorem pointer_goes_stale :
    ∃ s c e s', arun (Pos := Nat) [.msg 1 10] = .ok s ∧
      get cacheEntries s.cache (BitVec.setWidth 32 (1 : BitVec 16)) = .ok (c, some e) ∧
      s.content e = some 10 ∧
      arun [.msg 6 60, .msg 5 50, .msg 4 40, .msg 3 30, .msg 2 20, .lookup 1, .msg 1 10] = .ok s' ∧
      s'.content e = some 60 :=
  ⟨_, _, _, _, rfl, rfl, rfl, rfl, rfl⟩

end Verif.LruCache
