import Verif.Config.Lemmas4

namespace Verif.Config

open Verif.Param
open HeapList

/-! ## Good names compile -/

theorem keywords_buf : ∀ w ∈ keywords, (str "_buffer").isSuffixOf w = false := by decide +kernel

theorem ident_buf {k : Str} (h : isIdent k = true) : isIdent (k ++ bufSuffix) = true := by
  cases k with
  | nil => cases h
  | cons a s =>
    simp only [isIdent, List.cons_append, Bool.and_eq_true, List.all_append] at h ⊢
    refine ⟨⟨h.1.1, h.1.2, by decide⟩, ?_⟩
    rw [Bool.not_eq_true']
    apply Bool.eq_false_iff.mpr
    intro hc
    have hm : (a :: (s ++ bufSuffix)) ∈ keywords := by simpa using hc
    have := keywords_buf _ hm
    rw [Bool.eq_false_iff] at this
    exact this (by
      rw [List.isSuffixOf_iff_suffix]
      exact ⟨a :: s, rfl⟩)

theorem good_var {k : Str} (h : GoodName k) : var k = k := ident_var h.1

/-- First name of an object below `ps`. -/
theorem member_first : ∀ {d : Dict} {ps o : Path}, GoodNames d → o ∈ (members (tree d ps) ps).map (·.1) →
    ∃ x t, o = ps ++ x :: t ∧ (x ∈ keys d ∨ ∃ k ∈ keys d, x = k ++ bufSuffix)
  | .nil, ps, o, _, h => by cases h
  | .leaf k v r, ps, o, hg, h => by
    simp only [tree, members, List.map_cons, List.map_append, List.mem_cons, List.mem_append] at h
    rcases h with rfl | h | h
    · exact ⟨k, [], by rw [good_var hg.1], .inl List.mem_cons_self⟩
    · cases v <;> simp at h
      subst h
      exact ⟨k ++ bufSuffix, [], by rw [good_var hg.1], .inr ⟨k, List.mem_cons_self, rfl⟩⟩
    · obtain ⟨x, t, h1, h2⟩ := member_first hg.2 h
      refine ⟨x, t, h1, ?_⟩
      rcases h2 with h2 | ⟨k', h2, h3⟩
      · exact .inl (List.mem_cons_of_mem _ h2)
      · exact .inr ⟨k', List.mem_cons_of_mem _ h2, h3⟩
  | .sub k d r, ps, o, hg, h => by
    simp only [tree, members, List.map_cons, List.map_append, List.mem_cons, List.mem_append] at h
    rcases h with rfl | rfl | h | h
    · exact ⟨k, [], rfl, .inl List.mem_cons_self⟩
    · exact ⟨k, [nsName], rfl, .inl List.mem_cons_self⟩
    · obtain ⟨x, t, h1, _⟩ := member_first hg.2.1 h
      exact ⟨k, x :: t, by rw [h1]; simp, .inl List.mem_cons_self⟩
    · obtain ⟨x, t, h1, h2⟩ := member_first hg.2.2 h
      refine ⟨x, t, h1, ?_⟩
      rcases h2 with h2 | ⟨k', h2, h3⟩
      · exact .inl (List.mem_cons_of_mem _ h2)
      · exact .inr ⟨k', List.mem_cons_of_mem _ h2, h3⟩

theorem key_good : ∀ {d : Dict} {k : Str}, GoodNames d → k ∈ keys d → GoodName k
  | .nil, k, _, h => by cases h
  | .leaf k' v r, k, hg, h => by
    rcases List.mem_cons.mp h with rfl | h
    · exact hg.1
    · exact key_good hg.2 h
  | .sub k' d r, k, hg, h => by
    rcases List.mem_cons.mp h with rfl | h
    · exact hg.1
    · exact key_good hg.2.2 h

theorem members_ident : ∀ {d : Dict} {ps : Path}, GoodNames d → ∀ x ∈ members (tree d ps) ps, (x.1.getLast?.map isIdent).getD false = true
  | .nil, ps, _, x, h => by cases h
  | .leaf k v r, ps, hg, x, h => by
    simp only [tree, members, List.mem_cons, List.mem_append] at h
    rcases h with rfl | h | h
    · simp [good_var hg.1, hg.1.1]
    · cases v <;> simp at h
      subst h
      simp [good_var hg.1, ident_buf hg.1.1]
    · exact members_ident hg.2 x h
  | .sub k d r, ps, hg, x, h => by
    simp only [tree, members, List.mem_cons, List.mem_append] at h
    rcases h with rfl | rfl | h | h
    · simp [hg.1.1]
    · simp; decide
    · exact members_ident hg.2.1 x h
    · exact members_ident hg.2.2 x h

theorem append_inj {ps : Path} {x y : Str} {s t : Path} (h : ps ++ x :: s = ps ++ y :: t) : x = y ∧ s = t := by
  have := List.append_cancel_left h
  injection this with h1 h2
  exact ⟨h1, h2⟩

theorem members_nodup : ∀ {d : Dict} {ps : Path}, GoodNames d → DistinctKeys d → ((members (tree d ps) ps).map (·.1)).Nodup
  | .nil, ps, _, _ => by simp [tree, members]
  | .leaf k v r, ps, hg, hd => by
    have ih := members_nodup (ps := ps) hg.2 hd.2
    have key : ∀ o ∈ (members (tree r ps) ps).map (·.1), o ≠ ps ++ [k] ∧ o ≠ ps ++ [k ++ bufSuffix] := by
      intro o ho
      obtain ⟨x, t, h1, h2⟩ := member_first hg.2 ho
      constructor
      · intro he
        have hx := (append_inj (h1.symm.trans he)).1
        subst hx
        rcases h2 with h2 | ⟨k', _, h3⟩
        · exact hd.1 h2
        · exact hg.1.2.2 ⟨k', h3.symm⟩
      · intro he
        have hx := (append_inj (h1.symm.trans he)).1
        rcases h2 with h2 | ⟨k', h2, h3⟩
        · exact (key_good hg.2 h2).2.2 ⟨k, hx.symm⟩
        · have : k = k' := List.append_cancel_right (hx.symm.trans h3)
          exact hd.1 (this ▸ h2)
    simp only [tree, members, List.map_cons, List.map_append, good_var hg.1]
    rw [List.nodup_cons]
    constructor
    · intro h
      rcases List.mem_append.mp h with h | h
      · cases v <;> simp at h
        have := congrArg List.length h
        simp [bufSuffix] at this
        exact absurd this (by decide)
      · exact (key _ h).1 rfl
    · rw [List.nodup_append]
      refine ⟨by cases v <;> simp, ih, ?_⟩
      intro a ha b hb he
      subst he
      cases v <;> simp at ha
      subst ha
      exact (key _ hb).2 rfl
  | .sub k d r, ps, hg, hd => by
    have ih1 := members_nodup (ps := ps ++ [k]) hg.2.1 hd.2.1
    have ih2 := members_nodup (ps := ps) hg.2.2 hd.2.2
    have key : ∀ o ∈ (members (tree r ps) ps).map (·.1), ∀ t, o ≠ ps ++ k :: t := by
      intro o ho t he
      obtain ⟨x, t', h1, h2⟩ := member_first hg.2.2 ho
      have hx := (append_inj (h1.symm.trans he)).1
      subst hx
      rcases h2 with h2 | ⟨k', _, h3⟩
      · exact hd.1 h2
      · exact hg.1.2.2 ⟨k', h3.symm⟩
    have low : ∀ o ∈ (members (tree d (ps ++ [k])) (ps ++ [k])).map (·.1), ∃ x t, o = ps ++ k :: x :: t ∧ x ≠ nsName := by
      intro o ho
      obtain ⟨x, t, h1, h2⟩ := member_first hg.2.1 ho
      refine ⟨x, t, by rw [h1]; simp, ?_⟩
      rcases h2 with h2 | ⟨k', _, h3⟩
      · exact (key_good hg.2.1 h2).2.1
      · intro he
        rw [h3] at he
        have := congrArg List.length he
        rw [List.length_append, show bufSuffix.length = 7 from by decide, show nsName.length = 2 from by decide] at this
        omega
    simp only [tree, members, List.map_cons, List.map_append]
    rw [List.nodup_cons, List.nodup_cons, List.nodup_append]
    refine ⟨?_, ?_, ih1, ih2, ?_⟩
    · intro h
      rcases List.mem_cons.mp h with h | h
      · simp at h
      · rcases List.mem_append.mp h with h | h
        · obtain ⟨x, t, h1, _⟩ := low _ h
          simp at h1
        · exact key _ h [] rfl
    · intro h
      rcases List.mem_append.mp h with h | h
      · obtain ⟨x, t, h1, h2⟩ := low _ h
        have := (append_inj h1).2
        injection this with h3 _
        exact h2 h3.symm
      · exact key _ h [nsName] rfl
    · intro a ha b hb he
      subst he
      obtain ⟨x, t, h1, _⟩ := low _ ha
      exact key _ hb _ h1

theorem code_typed {ms : List (Path × CTy)} : ∀ {d : Dict} {ps : Path}, GoodNames d → (∀ x ∈ members (tree d ps) ps, x ∈ ms) → (ps ++ [nsName], CTy.ns) ∈ ms →
    ∀ s ∈ code d ps, s.wellTyped ms = true
  | .nil, ps, _, _, _, s, h => by cases h
  | .leaf k v r, ps, hg, hm, hn, s, h => by
    simp only [tree, members] at hm
    rcases List.mem_append.mp h with h | h
    · have h1 := hm _ List.mem_cons_self
      have hb : ∀ x, v = .str x → (ps ++ [k ++ bufSuffix], CTy.buf) ∈ ms := by
        rintro x rfl
        have := hm (ps ++ [var k ++ bufSuffix], CTy.buf) (List.mem_cons_of_mem _ (List.mem_append_left _ (by simp)))
        rwa [good_var hg.1] at this
      cases v <;> simp only [Scalar.ty, List.mem_singleton] at h
      case other => cases h
      all_goals
        subst h
        simp only [leafStmt, Stmt.wellTyped, Bool.and_eq_true, List.contains_iff_mem]
        simp [h1, hn]
      exact hb _ rfl
    · exact code_typed hg.2 (fun x hx => hm x (List.mem_cons_of_mem _ (List.mem_append_right _ hx))) hn s h
  | .sub k d r, ps, hg, hm, hn, s, h => by
    simp only [tree, members] at hm
    have h2 := hm _ (List.mem_cons_of_mem _ List.mem_cons_self)
    rcases List.mem_cons.mp h with rfl | h
    · simp only [Stmt.wellTyped, Bool.and_eq_true, List.contains_iff_mem, good_var hg.1]
      exact ⟨h2, hn⟩
    · rcases List.mem_append.mp h with h | h
      · exact code_typed hg.2.1 (fun x hx => hm x (List.mem_cons_of_mem _ (List.mem_cons_of_mem _ (List.mem_append_left _ hx)))) (by simpa using h2) s h
      · exact code_typed hg.2.2 (fun x hx => hm x (List.mem_cons_of_mem _ (List.mem_cons_of_mem _ (List.mem_append_right _ hx)))) hn s h

theorem generate_eq {m : Dict} (hne : NoEmpty m) (hn : m ≠ .nil) : generate m = (do
      let code ← initCode (tree (whole m) [configName])
      pure ({ members := ([configName], .struct) :: ([configName, nsName], .ns) :: members (tree (whole m) [configName]) [configName],
              stmts := .ns [configName, nsName] none [] :: code } : Prog)) := by
  have hE : NoEmpty (whole m) := ⟨hn, hne, trivial⟩
  unfold generate
  rw [show parseTree (.sub masterName m .nil) configName = tree (whole m) [configName] from parseTree_eq hE]

theorem whole_good {m : Dict} (hg : GoodNames m) : GoodNames (whole m) := ⟨⟨by decide +kernel, by decide, by decide⟩, hg, trivial⟩

theorem compiles_of {m : Dict} (hne : NoEmpty m) (hn : m ≠ .nil) (hs : Supported m) (hd : DistinctKeys m) (hg : GoodNames m) :
    ∃ P, generate m = .ok P ∧ P.compiles = true := by
  have hi := initCode_ok (d := whole m) (ps := [configName]) (supported_whole.mpr hs)
  have hw := whole_good hg
  have hwd : DistinctKeys (whole m) := ⟨by simp [keys], hd, trivial⟩
  rw [generate_eq hne hn, hi]
  refine ⟨_, rfl, ?_⟩
  simp only [Prog.compiles, Bool.and_eq_true, List.all_eq_true, decide_eq_true_eq]
  refine ⟨⟨?_, ?_⟩, ?_⟩
  · intro x hx
    rcases List.mem_cons.mp hx with rfl | hx
    · decide +kernel
    · rcases List.mem_cons.mp hx with rfl | hx
      · decide +kernel
      · exact members_ident hw x hx
  · rw [List.map_cons, List.map_cons, List.nodup_cons, List.nodup_cons]
    have key : ∀ o ∈ (members (tree (whole m) [configName]) [configName]).map (·.1), o ≠ [configName] ∧ o ≠ [configName, nsName] := by
      intro o ho
      obtain ⟨x, t, h1, h2⟩ := member_first hw ho
      constructor
      · rintro rfl; simp at h1
      · rintro rfl
        have := (append_inj (ps := [configName]) (x := nsName) (s := []) h1).1
        subst this
        rcases h2 with h2 | ⟨k', _, h3⟩
        · exact (key_good hw h2).2.1 rfl
        · have := congrArg List.length h3
          rw [List.length_append, show bufSuffix.length = 7 from by decide, show nsName.length = 2 from by decide] at this
          omega
    refine ⟨?_, fun h => (key _ h).2 rfl, members_nodup hw hwd⟩
    intro h
    rcases List.mem_cons.mp h with h | h
    · simp at h
    · exact (key _ h).1 rfl
  · intro s hs
    rcases List.mem_cons.mp hs with rfl | hs
    · simp [Stmt.wellTyped]
    · exact code_typed hw (fun x hx => List.mem_cons_of_mem _ (List.mem_cons_of_mem _ hx)) (by simp) s hs

end Verif.Config
