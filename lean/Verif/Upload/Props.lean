import Verif.Upload.Lemmas

/-! # Uploading a configuration: properties (C115) -/

namespace Verif.Upload

open Verif.Param Verif.ParamServer

/-! ## The entries of a configuration -/

theorem mem_paths_cons {key : Str} {c : Cfg} {rest : Items} {path : List Str} {v : Leaf} :
    (path, v) ∈ paths (.cons key c rest) ↔ (∃ q, (q, v) ∈ pathsIn c ∧ path = key :: q) ∨ (path, v) ∈ paths rest := by
  rw [show paths (.cons key c rest) = (pathsIn c).map (fun x => (key :: x.1, x.2)) ++ paths rest by rw [paths]]
  simp only [List.mem_append, List.mem_map, Prod.mk.injEq, Prod.exists]
  constructor
  · rintro (⟨q, u, h, rfl, rfl⟩ | h)
    · exact Or.inl ⟨q, h, rfl⟩
    · exact Or.inr h
  · rintro (⟨q, h, rfl⟩ | h)
    · exact Or.inl ⟨q, v, h, rfl, rfl⟩
    · exact Or.inr h

theorem has_paths {items : Items} {path : List Str} {v : Leaf} (h : Has items path v) : (path, v) ∈ paths items := by
  induction h with
  | leaf => exact mem_paths_cons.mpr (Or.inl ⟨[], by simp [pathsIn], rfl⟩)
  | dict _ ih => exact mem_paths_cons.mpr (Or.inl ⟨_, by unfold pathsIn; exact ih, rfl⟩)
  | later _ ih => exact mem_paths_cons.mpr (Or.inr ih)

mutual
theorem paths_has : ∀ (items : Items) {path : List Str} {v : Leaf}, (path, v) ∈ paths items → Has items path v
  | .nil, _, _, h => by simp [paths] at h
  | .cons key c rest, path, v, h => by
    rcases mem_paths_cons.mp h with ⟨q, hq, rfl⟩ | h
    · exact pathsIn_has key rest c hq
    · exact .later (paths_has rest h)
theorem pathsIn_has (key : Str) (rest : Items) : ∀ (c : Cfg) {q : List Str} {v : Leaf}, (q, v) ∈ pathsIn c →
    Has (.cons key c rest) (key :: q) v
  | .leaf u, q, v, h => by
    simp only [pathsIn, List.mem_singleton, Prod.mk.injEq] at h
    obtain ⟨rfl, rfl⟩ := h
    exact .leaf
  | .dict items, q, v, h => by
    unfold pathsIn at h
    exact .dict (paths_has items h)
end

theorem has_ne {items : Items} {path : List Str} {v : Leaf} (h : Has items path v) : path ≠ [] := by
  induction h with
  | leaf => simp
  | dict _ _ => simp
  | later _ ih => exact ih

theorem has_head {items : Items} {path : List Str} {v : Leaf} (h : Has items path v) : ∃ key q, path = key :: q ∧ key ∈ keys items := by
  induction h with
  | leaf => exact ⟨_, _, rfl, List.mem_cons_self⟩
  | dict _ _ => exact ⟨_, _, rfl, List.mem_cons_self⟩
  | later _ ih =>
    obtain ⟨k, q, h1, h2⟩ := ih
    exact ⟨k, q, h1, List.mem_cons_of_mem _ h2⟩

/-- What is sent for a configuration are its entries, each under its path. -/
theorem sent_iff {items : Items} {name : Str} {v : Leaf} :
    (name, v) ∈ paramsOf [] items ↔ ∃ path, Has items path v ∧ name = url path := by
  rw [paramsOf_paths]
  simp only [List.nil_append, List.mem_map, Prod.mk.injEq, Prod.exists]
  constructor
  · rintro ⟨path, u, h, rfl, rfl⟩; exact ⟨path, paths_has items h, rfl⟩
  · rintro ⟨path, h, rfl⟩; exact ⟨path, v, has_paths h, rfl, rfl⟩

/-- A dictionary has one value at a path. -/
theorem has_unique {items : Items} {path : List Str} {v v' : Leaf} (hu : Uniq items) (h : Has items path v) (h' : Has items path v') :
    v = v' := by
  induction h with
  | leaf =>
    unfold Uniq at hu
    cases h' with
    | leaf => rfl
    | later h =>
      obtain ⟨k, q, h1, h2⟩ := has_head h
      cases h1
      exact absurd h2 hu.1
  | dict h ih =>
    unfold Uniq at hu
    cases h' with
    | dict h'' => exact ih (by have := hu.2.1; unfold UniqIn at this; exact this) h''
    | later h'' =>
      obtain ⟨k, q, h1, h2⟩ := has_head h''
      cases h1
      exact absurd h2 hu.1
  | later h ih =>
    unfold Uniq at hu
    cases h' with
    | leaf =>
      obtain ⟨k, q, h1, h2⟩ := has_head h
      cases h1
      exact absurd h2 hu.1
    | dict h'' =>
      obtain ⟨k, q, h1, h2⟩ := has_head h
      cases h1
      exact absurd h2 hu.1
    | later h'' => exact ih hu.2.2 h''

/-! ## Names and parameters -/

theorem atPath_chain {l : List Op} (hp : Proper l) {n m : Nat} {cs : List Str} (h : AtPath l n cs m) :
    ∃ ms, chain m l = ms ++ chain n l ∧ cs = (ms.map (nsIdOf · l)).reverse := by
  induction h with
  | nil n => exact ⟨[], rfl, rfl⟩
  | cons h1 h2 _ ih =>
    rename_i n m k cs _
    obtain ⟨ms, h3, h4⟩ := ih
    refine ⟨ms ++ [m], ?_, ?_⟩
    · rw [h3, chain_child hp ((mem_subs hp).mpr ⟨h1, h2⟩)]; simp
    · rw [h4]; simp

theorem named_path {l : List Op} (hp : Proper l) {root p : Nat} {path path' : List Str} (h : Named l root path p)
    (h' : Named l root path' p) : path = path' := by
  obtain ⟨cs, c, rfl, _, rfl, h1⟩ := h
  obtain ⟨cs', c', rfl, _, rfl, h2⟩ := h'
  obtain ⟨ms, h3, rfl⟩ := atPath_chain hp h1
  obtain ⟨ms', h4, rfl⟩ := atPath_chain hp h2
  rw [h3] at h4
  rw [List.append_cancel_right h4]

theorem walk_named {fuel : Nat} {h0 h : Heap} {l : List Op} (hp : Proper l) (hd : Distinct l) (hf : l.length ≤ fuel)
    (hr : run fuel h0 l = .ok h) {root p : Nat} (hroot : root ∈ nss l) {path : List Str} (hne : path ≠ [])
    (hc : ∀ key ∈ path, key ≠ [] ∧ slash ∉ key ∧ 0 ∉ key) :
    walkPar l root (components (url path)) = some p ↔ Named l root path p := by
  obtain ⟨cs, c, rfl⟩ : ∃ cs c, path = cs ++ [c] := ⟨_, _, (List.dropLast_concat_getLast hne).symm⟩
  have h0p : 0 ∉ url (cs ++ [c]) := url_nul (fun k hk => (hc k hk).2.2)
  have hcomp := components_url (fun k hk => (hc k hk).2.1)
  have := parFind_iff (p := p) hp hd hf hr hroot h0p hcomp
  rw [parFind_spec hp hf hr hroot h0p] at this
  have hfil : (([] : Str) :: cs).filter (fun x => decide (x ≠ [])) = cs := by
    rw [List.filter_cons_of_neg (by simp), List.filter_eq_self]
    intro x hx
    exact decide_eq_true (hc x (List.mem_append_left _ hx)).1
  rw [hfil] at this
  constructor
  · intro hw
    obtain ⟨_, h1, h2, h3⟩ := this.mp (by rw [hw])
    exact ⟨cs, c, rfl, h1, h2, h3⟩
  · rintro ⟨cs', c', he, h1, h2, h3⟩
    obtain ⟨he1, he2⟩ := List.append_inj' he rfl
    injection he2 with he2
    have := this.mpr ⟨(hc c (by simp)).1, h1, by rw [he2]; exact h2, by rw [he1]; exact h3⟩
    injection this

theorem meant_wanted {d : Decl} {v : Leaf} {value : Value} (h : encode v = some value) : meant d value = wanted d v := by
  cases v with
  | bool b =>
    cases h
    cases d <;> simp only [meant, wanted]
    cases b <;> rfl
  | int z =>
    simp only [encode] at h
    split at h
    · rename_i hz
      cases h
      have hz' : (BitVec.ofInt 64 z).toInt = z := by
        rw [BitVec.toInt_ofInt]; exact Int.bmod_eq_of_le (by omega) (by omega)
      cases d <;> simp only [meant, wanted, hz']
    · cases h
  | real w => cases h; cases d <;> rfl
  | other => cases h

/-! ## The upload -/

theorem mem_requests {ids : Str → Option Nat} : ∀ {configs : List (Str × Items)} {rs : List Req}, requests ids configs = some rs →
    ∀ {r : Req}, r ∈ rs ↔ ∃ c ∈ configs, ids c.1 = some r.node ∧ (r.name, r.leaf) ∈ paramsOf [] c.2
  | [], rs, h, r => by cases h; simp
  | (board, items) :: rest, rs, h, r => by
    unfold requests at h
    cases hk : ids board with
    | none => simp [hk] at h
    | some k =>
      cases hr : requests ids rest with
      | none => simp [hk, hr] at h
      | some rs' =>
        simp only [hk, hr, Option.some.injEq] at h
        subst h
        rw [List.mem_append, mem_requests hr, List.mem_map]
        simp only [List.exists_mem_cons_iff, hk, Option.some.injEq]
        constructor
        · rintro (⟨x, hx, rfl⟩ | h)
          · exact Or.inl ⟨rfl, hx⟩
          · exact Or.inr h
        · rintro (⟨h1, h2⟩ | h)
          · refine Or.inl ⟨_, h2, ?_⟩
            cases r; cases h1; rfl
          · exact Or.inr h

theorem requests_length {ids : Str → Option Nat} : ∀ {configs : List (Str × Items)} {rs : List Req}, requests ids configs = some rs →
    rs.length = entries configs
  | [], rs, h => by cases h; rfl
  | (board, items) :: rest, rs, h => by
    unfold requests at h
    cases hk : ids board with
    | none => simp [hk] at h
    | some k =>
      cases hr : requests ids rest with
      | none => simp [hk, hr] at h
      | some rs' =>
        simp only [hk, hr, Option.some.injEq] at h
        subst h
        have := requests_length hr
        simp only [List.length_append, List.length_map, this, entries, List.map_cons, List.sum_cons]

theorem requests_some {ids : Str → Option Nat} : ∀ {configs : List (Str × Items)},
    (∃ rs, requests ids configs = some rs) ↔ ∀ c ∈ configs, ids c.1 ≠ none
  | [] => by simp [requests]
  | (board, items) :: rest => by
    have ih := requests_some (ids := ids) (configs := rest)
    unfold requests
    cases hk : ids board with
    | none => simp [hk]
    | some k =>
      cases hr : requests ids rest with
      | none =>
        rw [hr] at ih
        simp only [reduceCtorEq, exists_const, false_iff] at ih
        simp only [reduceCtorEq, exists_const, false_iff]
        exact fun h => ih (fun c hc => h c (List.mem_cons_of_mem _ hc))
      | some rs =>
        rw [hr] at ih
        have h2 := ih.mp ⟨rs, rfl⟩
        simp only [Option.some.injEq, exists_eq', true_iff]
        intro c hc
        rcases List.mem_cons.mp hc with rfl | hc
        · simp [hk]
        · exact h2 c hc

/-- The save requests, if it comes to them. -/
def afterwards (s : Status) (l : List Nat) : List Nat := if s = .done then l else []

theorem upload_run {fuel root : Nat} {net : Nat → Net} {saveNet : Nat → Bool} {ids : Str → Option Nat} {w : World}
    {configs : List (Str × Items)} {rs : List Req} (h : requests ids configs = some rs) {s : Status} {w' : World}
    (hs : sendAll fuel root net w rs = .ok (s, w')) :
    upload fuel root net saveNet ids w configs =
      .ok (s, w', afterwards s (saves ids saveNet configs)) := by
  unfold upload
  rw [h]
  show (sendAll fuel root net w rs >>= _) = _
  rw [hs]
  cases s <;> rfl

/-- The hypotheses on the boards and the configurations. -/
structure Setting (fuel root : Nat) (h0 : Nat → Heap) (l : Nat → List Op) (w : World) (ids : Str → Option Nat)
    (configs : List (Str × Items)) : Prop where
  boards : Boards fuel root (entries configs) h0 l w
  distinct : ∀ k, Distinct (l k)
  clean : ∀ c ∈ configs, Clean c.2
  uniq : ∀ c ∈ configs, Uniq c.2
  nodes : (configs.map (fun c => ids c.1)).Nodup

theorem Setting.names {fuel root : Nat} {h0 : Nat → Heap} {l : Nat → List Op} {w : World} {ids : Str → Option Nat}
    {configs : List (Str × Items)} (hS : Setting fuel root h0 l w ids configs) {rs : List Req} (h : requests ids configs = some rs) :
    ∀ r ∈ rs, 0 ∉ r.name := by
  intro r hr
  obtain ⟨c, hc, _, hm⟩ := (mem_requests h).mp hr
  obtain ⟨path, hh, hn⟩ := sent_iff.mp hm
  rw [hn]
  exact url_nul (fun k hk => (hS.clean c hc path _ hh k hk).2.2)

/-- An upload never makes a board fail an assertion, read out of bounds or loop, whatever the network does. -/
theorem upload_defined {fuel root : Nat} {h0 : Nat → Heap} {l : Nat → List Op} {w : World} {ids : Str → Option Nat}
    {configs : List (Str × Items)} (hS : Setting fuel root h0 l w ids configs) (net : Nat → Net) (saveNet : Nat → Bool) :
    ∃ r, upload fuel root net saveNet ids w configs = .ok r := by
  cases h : requests ids configs with
  | none => exact ⟨_, by unfold upload; rw [h]⟩
  | some rs =>
    obtain ⟨s, w', hs, _⟩ := sendAll_spec (net := net) (by rw [requests_length h]; exact hS.boards) (hS.names h)
    exact ⟨_, upload_run h hs⟩

/-- If the upload ends, with any losses on the way: every entry of the configurations names a parameter of its board, which
now has the value meant by the entry, or its old value if the entry is of another type; every other parameter of the board has its old
value. Boards without a configuration are as before. -/
theorem upload_applies {fuel root : Nat} {h0 : Nat → Heap} {l : Nat → List Op} {w : World} {ids : Str → Option Nat}
    {configs : List (Str × Items)} (hS : Setting fuel root h0 l w ids configs) {net : Nat → Net} {saveNet : Nat → Bool}
    {w' : World} {saved : List Nat} (hu : upload fuel root net saveNet ids w configs = .ok (.done, w', saved)) :
    (∀ c ∈ configs, ∃ k l', ids c.1 = some k ∧ Proper l' ∧ run fuel (h0 k) l' = .ok (w' k) ∧
      (∀ p, declOf p l' = declOf p (l k)) ∧
      (∀ path v, Has c.2 path v → ∃ p d, Named (l k) root path p ∧ declOf p (l k) = some d ∧
        valueOf p l' = (wanted d v).or (valueOf p (l k))) ∧
      (∀ p, (∀ path v, Has c.2 path v → ¬ Named (l k) root path p) → valueOf p l' = valueOf p (l k))) ∧
    ∀ k, (∀ c ∈ configs, ids c.1 ≠ some k) → w' k = w k := by
  cases h : requests ids configs with
  | none => unfold upload at hu; rw [h] at hu; cases hu
  | some rs =>
    obtain ⟨s, w2, hs, hd⟩ := sendAll_spec (net := net) (by rw [requests_length h]; exact hS.boards) (hS.names h)
    rw [upload_run h hs] at hu
    injection hu with hu
    injection hu with hu1 hu2
    injection hu2 with hu2 _
    subst hu1 hu2
    obtain ⟨hknown, hall⟩ := hd rfl
    refine ⟨fun c hc => ?_, fun k hk => ?_⟩
    · have hne := requests_some.mp ⟨rs, h⟩ c hc
      obtain ⟨k, hk⟩ := Option.ne_none_iff_exists'.mp hne
      have hrk : ∀ {r : Req}, r ∈ rs ∧ r.node = k ↔ r.node = k ∧ (r.name, r.leaf) ∈ paramsOf [] c.2 := by
        intro r
        rw [mem_requests h]
        constructor
        · rintro ⟨⟨c', hc', h1, h2⟩, rfl⟩
          refine ⟨rfl, ?_⟩
          have : c' = c := List.inj_on_of_nodup_map hS.nodes hc' hc (by rw [h1, hk])
          rw [← this]; exact h2
        · rintro ⟨rfl, h2⟩
          exact ⟨⟨c, hc, hk, h2⟩, rfl⟩
      have hp := hS.boards.proper k
      have hf : (l k).length ≤ fuel := by have := hS.boards.room k; omega
      have hwalk : ∀ {path : List Str} {v : Leaf} {p : Nat}, Has c.2 path v →
          (walkPar (l k) root (components (url path)) = some p ↔ Named (l k) root path p) := fun hh =>
        walk_named hp (hS.distinct k) hf (hS.boards.ran k) (hS.boards.root k) (has_ne hh) (hS.clean c hc _ _ hh)
      -- the sets of this board
      have hset : ∀ {p : Nat} {a : AVal}, Op.set p a ∈ sets (l k) root k rs ↔
          ∃ path v, Has c.2 path v ∧ Named (l k) root path p ∧ ∃ d, declOf p (l k) = some d ∧ wanted d v = some a := by
        intro p a
        rw [mem_sets]
        constructor
        · rintro ⟨r, hr, hrn, v, hv, hw, d, hd, hm⟩
          obtain ⟨path, hh, hn⟩ := sent_iff.mp (hrk.mp ⟨hr, hrn⟩).2
          rw [hn] at hw
          exact ⟨path, r.leaf, hh, (hwalk hh).mp hw, d, hd, by rw [← meant_wanted hv]; exact hm⟩
        · rintro ⟨path, v, hh, hn, d, hd, hm⟩
          have hreq := (hrk (r := ⟨k, url path, v⟩)).mpr ⟨rfl, sent_iff.mpr ⟨path, hh, rfl⟩⟩
          obtain ⟨⟨u, q, hu, _⟩, _⟩ := hknown _ hreq.1
          exact ⟨_, hreq.1, rfl, u, hu, (hwalk hh).mpr hn, d, hd, by rw [meant_wanted hu]; exact hm⟩
      refine ⟨k, sets (l k) root k rs ++ l k, hk, (hall k).1, (hall k).2, accesses_decl sets_accesses, ?_, ?_⟩
      · intro path v hh
        have hreq := (hrk (r := ⟨k, url path, v⟩)).mpr ⟨rfl, sent_iff.mpr ⟨path, hh, rfl⟩⟩
        obtain ⟨⟨u, p, hu, hw⟩, _⟩ := hknown _ hreq.1
        have hn := (hwalk hh).mp hw
        obtain ⟨cs, c0, _, hm, _⟩ := id hn
        obtain ⟨d, hd⟩ := pars_declOf hm
        refine ⟨p, d, hn, hd, ?_⟩
        have huniq : ∀ {b : AVal}, Op.set p b ∈ sets (l k) root k rs → wanted d v = some b := by
          intro b hb
          obtain ⟨path', v', hh', hn', d', hd', hw'⟩ := hset.mp hb
          have := named_path hp hn hn'
          subst this
          have := has_unique (hS.uniq c hc) hh hh'
          subst this
          rw [hd] at hd'; cases hd'; exact hw'
        cases hwd : wanted d v with
        | none =>
          rw [Option.none_or]
          refine valueOf_unset sets_accesses (fun a ha => ?_)
          have := huniq ha
          rw [hwd] at this; cases this
        | some a =>
          rw [Option.some_or]
          refine valueOf_set sets_accesses (hset.mpr ⟨path, v, hh, hn, d, hd, hwd⟩) (fun b hb => ?_)
          have := huniq hb
          rw [hwd] at this; cases this; rfl
      · intro p hno
        refine valueOf_unset sets_accesses (fun a ha => ?_)
        obtain ⟨path, v, hh, hn, _⟩ := hset.mp ha
        exact hno path v hh hn
    · have hnil : ∀ {qs : List Req}, (∀ r ∈ qs, r.node ≠ k) → sets (l k) root k qs = [] := by
        intro qs
        induction qs with
        | nil => intro _; rfl
        | cons q qs ih =>
          intro hq
          unfold sets
          rw [ih (fun r hr => hq r (List.mem_cons_of_mem _ hr)), if_neg (hq q List.mem_cons_self)]; rfl
      have := (hall k).2
      rw [hnil (fun r hr e => by
        obtain ⟨c, hc, h1, _⟩ := (mem_requests h).mp hr
        exact hk c hc (by rw [h1, e])), List.nil_append, hS.boards.ran k] at this
      injection this with this
      exact this.symm

/-- The configuration suits a board: every entry names a parameter, with a value of its type; the names fit a request. -/
def Suits (l : List Op) (root : Nat) (items : Items) : Prop :=
  ∀ path v, Has items path v → (url path).length ≤ 92 ∧
    ∃ p d a, Named l root path p ∧ declOf p l = some d ∧ wanted d v = some a

/-- With configurations that suit their boards and an upload that ends, the boards have exactly the values of the
configurations. -/
theorem upload_exact_partial {fuel root : Nat} {h0 : Nat → Heap} {l : Nat → List Op} {w : World} {ids : Str → Option Nat}
    {configs : List (Str × Items)} (hS : Setting fuel root h0 l w ids configs) {net : Nat → Net} {saveNet : Nat → Bool}
    {w' : World} {saved : List Nat} (hu : upload fuel root net saveNet ids w configs = .ok (.done, w', saved))
    {c : Str × Items} (hc : c ∈ configs) {k : Nat} (hk : ids c.1 = some k) (hs : Suits (l k) root c.2) :
    ∃ l', Proper l' ∧ run fuel (h0 k) l' = .ok (w' k) ∧
      ∀ path v, Has c.2 path v → ∃ p d a, Named (l k) root path p ∧ declOf p l' = some d ∧ wanted d v = some a ∧
        valueOf p l' = some a := by
  obtain ⟨k', l', hk', h1, h2, h3, h4, _⟩ := (upload_applies hS hu).1 c hc
  rw [hk] at hk'; cases hk'
  refine ⟨l', h1, h2, fun path v hh => ?_⟩
  obtain ⟨p, d, hn, hd, hv⟩ := h4 path v hh
  obtain ⟨_, p', d', a, hn', hd', ha⟩ := hs path v hh
  have hp := hS.boards.proper k
  have hf : (l k).length ≤ fuel := by have := hS.boards.room k; omega
  have hw := walk_named (p := p) hp (hS.distinct k) hf (hS.boards.ran k) (hS.boards.root k) (has_ne hh) (hS.clean c hc _ _ hh)
  have hw' := walk_named (p := p') hp (hS.distinct k) hf (hS.boards.ran k) (hS.boards.root k) (has_ne hh) (hS.clean c hc _ _ hh)
  have : p = p' := by
    have := (hw.mpr hn).symm.trans (hw'.mpr hn')
    injection this
  subst this
  rw [hd] at hd'; cases hd'
  exact ⟨p, d, a, hn, by rw [h3, hd], ha, by rw [hv, ha]; rfl⟩

/-- With all boards found, configurations that suit them and nothing lost, the upload ends and every board is told to save. -/
theorem upload_completes {fuel root : Nat} {h0 : Nat → Heap} {l : Nat → List Op} {w : World} {ids : Str → Option Nat}
    {configs : List (Str × Items)} (hS : Setting fuel root h0 l w ids configs) {net : Nat → Net} {saveNet : Nat → Bool}
    (hnet : ∀ i, net i = .arrives) (hsave : ∀ i, saveNet i = true)
    (hfound : ∀ c ∈ configs, ∃ k, ids c.1 = some k ∧ Suits (l k) root c.2) :
    ∃ w' saved, upload fuel root net saveNet ids w configs = .ok (.done, w', saved) ∧
      ∀ c ∈ configs, ∃ k ∈ saved, ids c.1 = some k := by
  obtain ⟨rs, h⟩ := (requests_some (ids := ids)).mpr (fun c hc => by
    obtain ⟨k, hk, _⟩ := hfound c hc
    rw [hk]; simp)
  have hok : ∀ r ∈ rs, 0 ∉ r.name ∧ r.name.length ≤ 92 ∧ Ready (l r.node) root r := by
    intro r hr
    obtain ⟨c, hc, hk, hm⟩ := (mem_requests h).mp hr
    obtain ⟨path, hh, hn⟩ := sent_iff.mp hm
    obtain ⟨k, hk', hs⟩ := hfound c hc
    rw [hk] at hk'; cases hk'
    obtain ⟨hlen, p, d, a, hnm, hd, ha⟩ := hs path _ hh
    have hf : (l r.node).length ≤ fuel := by have := hS.boards.room r.node; omega
    obtain ⟨v, hv⟩ : ∃ v, encode r.leaf = some v := by
      cases hl : r.leaf with
      | bool b => exact ⟨_, rfl⟩
      | int z =>
        rw [hl] at ha
        cases d <;> simp only [wanted] at ha <;> try (cases ha; done)
        split at ha
        · exact ⟨_, if_pos (by omega)⟩
        · cases ha
      | real w => exact ⟨_, rfl⟩
      | other => rw [hl] at ha; cases d <;> cases ha
    refine ⟨hS.names h r hr, by rw [hn]; exact hlen, v, p, hv, ?_, Or.inl ⟨d, a, hd, by rw [meant_wanted hv]; exact ha⟩⟩
    rw [hn]
    exact (walk_named (hS.boards.proper _) (hS.distinct _) hf (hS.boards.ran _) (hS.boards.root _) (has_ne hh)
      (hS.clean c hc _ _ hh)).mpr hnm
  have hB : Boards fuel root rs.length h0 l w := by rw [requests_length h]; exact hS.boards
  obtain ⟨w', hs⟩ := sendAll_done hB hnet hok
  refine ⟨w', _, upload_run h hs, ?_⟩
  have : ∀ {cs : List (Str × Items)} {sn : Nat → Bool}, (∀ i, sn i = true) → (∀ c ∈ cs, ∃ k, ids c.1 = some k) →
      ∀ c ∈ cs, ∃ k ∈ saves ids sn cs, ids c.1 = some k := by
    intro cs
    induction cs with
    | nil => intro _ _ _ c hc; cases hc
    | cons x cs ih =>
      intro sn hsn hf c hc
      rcases List.mem_cons.mp hc with rfl | hc
      · obtain ⟨k, hk⟩ := hf c List.mem_cons_self
        exact ⟨k, by unfold saves; rw [hsn 0, hk]; simp, hk⟩
      · obtain ⟨k, h1, h2⟩ := ih (sn := fun i => sn (i + 1)) (fun i => hsn (i + 1)) (fun c hc => hf c (List.mem_cons_of_mem _ hc)) c hc
        exact ⟨k, by unfold saves; exact List.mem_append_right _ h1, h2⟩
  exact this hsave (fun c hc => by obtain ⟨k, hk, _⟩ := hfound c hc; exact ⟨k, hk⟩)

/-- An entry that names no parameter, or a board that is not found: the upload does not end. -/
theorem upload_unknown {fuel root : Nat} {h0 : Nat → Heap} {l : Nat → List Op} {w : World} {ids : Str → Option Nat}
    {configs : List (Str × Items)} (hS : Setting fuel root h0 l w ids configs) {net : Nat → Net} {saveNet : Nat → Bool}
    {c : Str × Items} (hc : c ∈ configs)
    (hbad : ids c.1 = none ∨ ∃ k path v, ids c.1 = some k ∧ Has c.2 path v ∧ ∀ p, ¬ Named (l k) root path p) :
    ∀ w' saved, upload fuel root net saveNet ids w configs ≠ .ok (.done, w', saved) := by
  intro w' saved hu
  obtain ⟨k, l', hk, _, _, _, h4, _⟩ := (upload_applies hS hu).1 c hc
  rcases hbad with h | ⟨k', path, v, hk', hh, hno⟩
  · rw [hk] at h; cases h
  · rw [hk] at hk'; cases hk'
    obtain ⟨p, _, hn, _⟩ := h4 path v hh
    exact hno p hn

theorem sendAll_lost {fuel root : Nat} : ∀ {rs : List Req} {net : Nat → Net} {w w' : World} {i : Nat}, i < rs.length →
    net i ≠ .arrives → sendAll fuel root net w rs ≠ .ok (.done, w')
  | [], _, _, _, _, hi, _ => by simp at hi
  | r :: rs, net, w, w', i, hi, hl => by
    unfold sendAll
    by_cases hlen : 92 < r.name.length
    · rw [if_pos hlen]; intro h; cases h
    rw [if_neg hlen]
    cases encode r.leaf with
    | none => intro h; cases h
    | some v =>
      cases hnet : net 0 with
      | requestLost => intro h; cases h
      | answerLost =>
        show (getSet fuel root (w r.node) r.name v >>= _) ≠ _
        cases getSet fuel root (w r.node) r.name v with
        | error e => intro h; cases h
        | ok a => intro h; cases h
      | arrives =>
        show (getSet fuel root (w r.node) r.name v >>= _) ≠ _
        cases getSet fuel root (w r.node) r.name v with
        | error e => intro h; cases h
        | ok a =>
          show (if a.2 = true then sendAll fuel root (fun i => net (i + 1)) (w.set r.node a.1) rs
            else pure (.stuck, w.set r.node a.1)) ≠ _
          by_cases ha : a.2 = true
          · rw [if_pos ha]
            cases i with
            | zero => exact absurd hnet hl
            | succ i => exact sendAll_lost (i := i) (by simpa using hi) hl
          · rw [if_neg ha]; intro h; cases h

/-- One lost request or answer, and the upload does not end. -/
theorem upload_lost {fuel root : Nat} {net : Nat → Net} {saveNet : Nat → Bool} {ids : Str → Option Nat} {w w' : World}
    {configs : List (Str × Items)} {saved : List Nat} {i : Nat} (hi : i < entries configs) (hl : net i ≠ .arrives) :
    upload fuel root net saveNet ids w configs ≠ .ok (.done, w', saved) := by
  intro hu
  unfold upload at hu
  cases h : requests ids configs with
  | none => rw [h] at hu; cases hu
  | some rs =>
    rw [h] at hu
    have hu : (sendAll fuel root net w rs >>= fun r => match r.1 with
      | .done => pure (.done, r.2, saves ids saveNet configs)
      | s => pure (s, r.2, [])) = Except.ok (Status.done, w', saved) := hu
    cases hs : sendAll fuel root net w rs with
    | error e => rw [hs] at hu; cases hu
    | ok r =>
      rw [hs] at hu
      obtain ⟨s, w2⟩ := r
      cases s with
      | done => exact sendAll_lost (by rw [requests_length h]; exact hi) hl hs
      | stuck => cases hu
      | raised => cases hu

/-- The save requests are not awaited: an upload ends in the same way if all of them are lost, and then no board saves. -/
theorem save_unnoticed {fuel root : Nat} {net : Nat → Net} {saveNet : Nat → Bool} {ids : Str → Option Nat} {w w' : World}
    {configs : List (Str × Items)} {saved : List Nat}
    (hu : upload fuel root net saveNet ids w configs = .ok (.done, w', saved)) :
    upload fuel root net (fun _ => false) ids w configs = .ok (.done, w', []) := by
  have hnone : ∀ cs : List (Str × Items), saves ids (fun _ => false) cs = [] := by
    intro cs
    induction cs with
    | nil => rfl
    | cons x cs ih => unfold saves; rw [ih]; rfl
  unfold upload at hu ⊢
  cases h : requests ids configs with
  | none => rw [h] at hu; cases hu
  | some rs =>
    rw [h] at hu
    have hu : (sendAll fuel root net w rs >>= fun r => match r.1 with
      | .done => pure (.done, r.2, saves ids saveNet configs)
      | s => pure (s, r.2, [])) = Except.ok (Status.done, w', saved) := hu
    show (sendAll fuel root net w rs >>= fun r => match r.1 with
      | .done => pure (.done, r.2, saves ids (fun _ => false) configs)
      | s => pure (s, r.2, [])) = Except.ok (Status.done, w', [])
    cases hs : sendAll fuel root net w rs with
    | error e => rw [hs] at hu; cases hu
    | ok r =>
      rw [hs] at hu
      obtain ⟨s, w2⟩ := r
      cases s with
      | done =>
        cases hu
        show Except.ok (Status.done, w2, saves ids (fun _ => false) configs) = _
        rw [hnone]
      | stuck => cases hu
      | raised => cases hu

/-! ## The configurations of the robots -/

theorem motor_distinct : Distinct motorOps := by
  unfold Distinct; decide +kernel

def mk : List (String × Cfg) → Items
  | [] => .nil
  | (k, c) :: r => .cons (str k) c (mk r)

def real (w : W32) : Cfg := .leaf (.real w)

def int (z : Int) : Cfg := .leaf (.int z)

/-- The configuration of each wheel in config_order.yaml:53-104 and config_chaos.yaml:53-104. -/
def wheel : Items :=
  mk [("encoders", .dict (mk [("primary", .dict (mk [("p", int 49), ("q", int 676), ("ticks_per_rev", int 4096)]))])),
    ("motor", .dict (mk [("torque_cst", real 0x3f800000)])),
    ("control", .dict (mk [("mode", int 2),
      ("current", .dict (mk [("kp", real 0x40800000), ("ki", real 0x44bb8000), ("kd", real 0), ("i_limit", real 0x42480000)])),
      ("velocity", .dict (mk [("kp", real 0x41a00000), ("ki", real 0x42480000), ("kd", real 0), ("i_limit", real 0x447a0000)])),
      ("position", .dict (mk [("kp", real 0x3dcccccd), ("ki", real 0x3f000000), ("kd", real 0)])),
      ("low_batt_th", real 0x40a00000), ("acceleration_limit", real 0x43480000), ("velocity_limit", real 0x42480000),
      ("torque_limit", real 0x41f00000)]))]

/-- A check of a configuration against the declarations of a board. -/
def suitsCheck (l : List Op) (root : Nat) (items : Items) : Bool :=
  (paths items).all fun x =>
    decide ((url x.1).length ≤ 92) && x.1.all (fun k => decide (k ≠ [] ∧ slash ∉ k ∧ 0 ∉ k)) &&
    match walkPar l root (components (url x.1)) with
    | none => false
    | some p =>
      match declOf p l with
      | none => false
      | some d => (wanted d x.2).isSome

theorem suits_of_check {fuel : Nat} {h0 h : Heap} {l : List Op} (hp : Proper l) (hd : Distinct l) (hf : l.length ≤ fuel)
    (hr : run fuel h0 l = .ok h) {root : Nat} (hroot : root ∈ nss l) {items : Items} (hc : suitsCheck l root items = true) :
    Clean items ∧ Suits l root items := by
  have key : ∀ path v, Has items path v → _ := fun path v hh => List.all_eq_true.mp hc _ (has_paths hh)
  have hclean : Clean items := by
    intro path v hh
    have h1 := key path v hh
    simp only [Bool.and_eq_true, List.all_eq_true, decide_eq_true_eq] at h1
    exact h1.1.2
  refine ⟨hclean, fun path v hh => ?_⟩
  have h1 := key path v hh
  simp only [Bool.and_eq_true, decide_eq_true_eq] at h1
  refine ⟨h1.1.1, ?_⟩
  have h2 := h1.2
  cases hw : walkPar l root (components (url path)) with
  | none => rw [hw] at h2; cases h2
  | some p =>
    simp only [hw] at h2
    cases hdp : declOf p l with
    | none => simp [hdp] at h2
    | some d =>
      simp only [hdp] at h2
      obtain ⟨a, ha⟩ := Option.isSome_iff_exists.mp h2
      exact ⟨p, d, a, (walk_named hp hd hf hr hroot (has_ne hh) (hclean path v hh)).mp hw, hdp, ha⟩

/-- The names of the boards of the two wheels. -/
def wheels : List (Str × Items) := [(str "left-wheel", wheel), (str "right-wheel", wheel)]

theorem wheel_uniq : Uniq wheel := by
  simp only [wheel, mk, Uniq, UniqIn, keys, real, int]
  repeat' apply And.intro
  all_goals decide +kernel

/-- The configuration of the wheels, for boards that were just started: whatever the names of the boards are mapped to, if
they are different boards. -/
theorem wheels_setting {h0 : Nat → Heap} {w : World} (hr : ∀ k, run 200 (h0 k) motorOps = .ok (w k)) {ids : Str → Option Nat}
    (hne : ids (str "left-wheel") ≠ ids (str "right-wheel")) : Setting 200 0 h0 (fun _ => motorOps) w ids wheels where
  boards := ⟨fun _ => motor_proper, fun _ => by decide +kernel, hr, fun _ => by decide +kernel⟩
  distinct _ := motor_distinct
  clean c hc := by
    have := (suits_of_check motor_proper motor_distinct (by decide +kernel) (hr 0) (root := 0) (items := wheel)
      (by decide +kernel) (by decide +kernel)).1
    simp only [wheels, List.mem_cons, List.not_mem_nil, or_false] at hc
    rcases hc with rfl | rfl <;> exact this
  uniq c hc := by
    simp only [wheels, List.mem_cons, List.not_mem_nil, or_false] at hc
    rcases hc with rfl | rfl <;> exact wheel_uniq
  nodes := by simp [wheels, hne]

/-- The robots' configuration of the wheels is of the right types throughout: if nothing is lost the upload ends and every
value is set. -/
theorem wheels_applied {h0 : Nat → Heap} {w : World} (hr : ∀ k, run 200 (h0 k) motorOps = .ok (w k)) {ids : Str → Option Nat}
    {a b : Nat} (ha : ids (str "left-wheel") = some a) (hb : ids (str "right-wheel") = some b) (hne : a ≠ b)
    {net : Nat → Net} {saveNet : Nat → Bool} (hnet : ∀ i, net i = .arrives) :
    ∃ w' saved, upload 200 0 net saveNet ids w wheels = .ok (.done, w', saved) ∧ ∀ k, k = a ∨ k = b →
      ∃ l', Proper l' ∧ run 200 (h0 k) l' = .ok (w' k) ∧
        ∀ path v, Has wheel path v → ∃ p d x, Named motorOps 0 path p ∧ declOf p l' = some d ∧ wanted d v = some x ∧
          valueOf p l' = some x := by
  have hS : Setting 200 0 h0 (fun _ => motorOps) w ids wheels := wheels_setting hr (by rw [ha, hb]; simpa using hne)
  have hsuit : Suits motorOps 0 wheel := (suits_of_check motor_proper motor_distinct (by decide +kernel) (hr 0) (root := 0)
    (items := wheel) (by decide +kernel) (by decide +kernel)).2
  obtain ⟨w', saved, hu, _⟩ := upload_completes (saveNet := fun _ => true) hS hnet (fun _ => rfl) (by
    intro c hc
    simp only [wheels, List.mem_cons, List.not_mem_nil, or_false] at hc
    rcases hc with rfl | rfl
    · exact ⟨a, ha, hsuit⟩
    · exact ⟨b, hb, hsuit⟩)
  have hu' : ∃ saved, upload 200 0 net saveNet ids w wheels = .ok (.done, w', saved) := by
    cases h : requests ids wheels with
    | none => unfold upload at hu; rw [h] at hu; cases hu
    | some rs =>
      obtain ⟨s, w2, hs, _⟩ := sendAll_spec (net := net) (by rw [requests_length h]; exact hS.boards) (hS.names h)
      rw [upload_run h hs] at hu
      injection hu with hu
      injection hu with hu1 hu2
      injection hu2 with hu2 _
      subst hu1 hu2
      exact ⟨_, upload_run h hs⟩
  obtain ⟨saved', hu'⟩ := hu'
  refine ⟨w', saved', hu', fun k hk => ?_⟩
  rcases hk with rfl | rfl
  · exact upload_exact_partial hS hu' (c := (str "left-wheel", wheel)) (by simp [wheels]) ha hsuit
  · exact upload_exact_partial hS hu' (c := (str "right-wheel", wheel)) (by simp [wheels]) hb hsuit

/-- There are such boards. -/
example : ∃ w : World, ∀ k, run 200 ((fun _ => blank) k) motorOps = .ok (w k) := by
  obtain ⟨h, hh⟩ := run_ok (fuel := 200) (h0 := blank) motor_proper (by decide +kernel)
  exact ⟨fun _ => h, fun _ => hh⟩

/-- The proportional gain of the velocity, written as an integer. -/
def mistyped : List (Str × Items) :=
  [(str "left-wheel", mk [("control", .dict (mk [("velocity", .dict (mk [("kp", int 20)]))]))])]

/-- The full claim "after an upload the boards have the values of the configuration" is false: written as an integer, a gain is
ignored, and the upload ends as if it had been set. The gain is still 0. -/
theorem mistyped_ignored {h0 : Nat → Heap} {w : World} (hr : ∀ k, run 200 (h0 k) motorOps = .ok (w k)) {ids : Str → Option Nat}
    {k : Nat} (hk : ids (str "left-wheel") = some k) {net : Nat → Net} (hnet : ∀ i, net i = .arrives) :
    ∃ w' saved l', upload 200 0 net (fun _ => true) ids w mistyped = .ok (.done, w', saved) ∧ Proper l' ∧
      run 200 (h0 k) l' = .ok (w' k) ∧
      ∃ p, Named motorOps 0 [str "control", str "velocity", str "kp"] p ∧ valueOf p l' = some (.scalar 0) := by
  have hhas : ∀ c ∈ mistyped, c.1 = str "left-wheel" ∧ ∀ path v, Has c.2 path v ↔
      path = [str "control", str "velocity", str "kp"] ∧ v = .int 20 := by
    intro c hc
    simp only [mistyped, List.mem_cons, List.not_mem_nil, or_false] at hc
    subst hc
    refine ⟨rfl, fun path v => ⟨fun h => ?_, ?_⟩⟩
    · have := has_paths h
      simpa [mk, paths, pathsIn, int] using this
    · rintro ⟨rfl, rfl⟩
      exact .dict (.dict .leaf)
  have hclean : ∀ key ∈ [str "control", str "velocity", str "kp"], key ≠ [] ∧ slash ∉ key ∧ 0 ∉ key := by decide +kernel
  have hS : Setting 200 0 h0 (fun _ => motorOps) w ids mistyped :=
    { boards := ⟨fun _ => motor_proper, fun _ => by decide +kernel, hr, fun _ => by decide +kernel⟩
      distinct := fun _ => motor_distinct
      clean := fun c hc path v hh => by
        obtain ⟨rfl, rfl⟩ := ((hhas c hc).2 path v).mp hh
        exact hclean
      uniq := fun c hc => by
        simp only [mistyped, List.mem_cons, List.not_mem_nil, or_false] at hc
        subst hc
        simp only [mk, Uniq, UniqIn, keys, int]
        decide +kernel
      nodes := by simp [mistyped] }
  have hreq : requests ids mistyped = some [⟨k, str "/control/velocity/kp", .int 20⟩] := by
    simp only [requests, mistyped, hk]
    rfl
  have hB : Boards 200 0 [(⟨k, str "/control/velocity/kp", .int 20⟩ : Req)].length h0 (fun _ => motorOps) w := by
    rw [requests_length hreq]; exact hS.boards
  obtain ⟨w', hs⟩ := sendAll_done hB hnet (by
    intro r hr
    simp only [List.mem_singleton] at hr
    subst hr
    dsimp only
    refine ⟨by decide +kernel, by decide +kernel, .integer 20, 8, ?_, ?_, Or.inr (by decide +kernel)⟩
    · show encode (.int 20) = _; decide +kernel
    · show walkPar motorOps 0 (components (str "/control/velocity/kp")) = _; decide +kernel)
  have hu := upload_run (saveNet := fun _ => true) hreq hs
  obtain ⟨k', l', hk', h1, h2, _, h4, _⟩ := (upload_applies hS hu).1 _ (List.mem_singleton.mpr rfl)
  rw [hk] at hk'; cases hk'
  refine ⟨w', _, l', hu, h1, h2, ?_⟩
  obtain ⟨p, d, hn, hd, hv⟩ := h4 [str "control", str "velocity", str "kp"] (.int 20) (.dict (.dict .leaf))
  have hw := (walk_named motor_proper motor_distinct (by decide +kernel) (hr 0) (by decide +kernel) (by simp) hclean).mpr hn
  have hp8 : p = 8 := by
    have h8 : walkPar motorOps 0 (components (url [str "control", str "velocity", str "kp"])) = some 8 := by decide +kernel
    rw [h8] at hw; injection hw with hw; exact hw.symm
  subst hp8
  refine ⟨8, hn, ?_⟩
  have hd8 : declOf 8 motorOps = some (.scalar 0 (some 0)) := by decide +kernel
  rw [hd8] at hd; cases hd
  rw [hv]
  decide +kernel

end Verif.Upload
