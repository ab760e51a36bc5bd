import Verif.Gpio.Model

/-!
# Handles of GPIO inputs — properties (C144)
-/

namespace Verif.Gpio

/-- Each open chip and its line belong to exactly one object that is alive, and each object has both or none. -/
structure Owned (w : World) : Prop where
  valid : ∀ s o h, w.objs s = some o → o.chip = some h → w.opened h = true ∧ w.held h = true
  one : ∀ s t o p h, w.objs s = some o → w.objs t = some p → o.chip = some h → p.chip = some h → s = t
  both : ∀ s o, w.objs s = some o → o.line = o.chip
  owner : ∀ h, w.opened h = true → ∃ s o, w.objs s = some o ∧ o.chip = some h
  held : ∀ h, w.held h = true → w.opened h = true
  fresh : ∀ h, w.opened h = true → h < w.next

theorem start_owned : Owned start :=
  ⟨fun _ _ _ h => (nomatch h), fun _ _ _ _ _ h => (nomatch h), fun _ _ h => (nomatch h), fun _ h => (nomatch h), fun _ h => (nomatch h), fun _ h => (nomatch h)⟩

theorem upd_self {α : Type} (f : Nat → α) (i : Nat) (v : α) : upd f i v i = v := if_pos rfl

theorem upd_other {α : Type} (f : Nat → α) {i j : Nat} (v : α) (h : j ≠ i) : upd f i v j = f j := if_neg h

/-- Opening a chip, and closing it at once, changes only the number of the next one. -/
theorem undo {f : Nat → Bool} {i : Nat} (h : f i = false) (v : Bool) : upd (upd f i v) i false = f := by
  funext j
  by_cases e : j = i
  · rw [e, upd_self, h]
  · rw [upd_other _ _ e, upd_other _ _ e]

theorem undo' {f : Nat → Bool} {i : Nat} (h : f i = false) : upd f i false = f := by
  funext j
  by_cases e : j = i
  · rw [e, upd_self, h]
  · rw [upd_other _ _ e]

theorem Owned.closed {w : World} (o : Owned w) : w.opened w.next = false ∧ w.held w.next = false := by
  have a : w.opened w.next = false := by
    cases e : w.opened w.next with
    | false => rfl
    | true => exact absurd (o.fresh _ e) (by omega)
  refine ⟨a, ?_⟩
  cases e : w.held w.next with
  | false => rfl
  | true => rw [o.held _ e] at a; cases a

/-- What `open` does: nothing is left of a chip unless its line is given. -/
theorem open_spec {w : World} (o : Owned w) (r : Reply) : openInput w r = .done (match r with
    | .noChip => (w, none)
    | .noLine | .refused => ({ w with next := w.next + 1 }, none)
    | .given => ({ w with opened := upd w.opened w.next true, held := upd w.held w.next true, next := w.next + 1 }, some ⟨some w.next, some w.next⟩)) := by
  obtain ⟨a, b⟩ := o.closed
  cases r <;> simp only [openInput, drop, release, close, Out.bind, moveNew, upd_self, if_true, undo a, undo b, undo' b]

theorem drop_spec {w : World} {i : Input} (hb : i.line = i.chip) (hv : ∀ h, i.chip = some h → w.opened h = true) :
    drop w i = .done (match i.chip with
      | none => w
      | some h => { w with opened := upd w.opened h false, held := upd w.held h false }) := by
  obtain ⟨c, l⟩ := i
  obtain rfl : l = c := hb
  cases l with
  | none => rfl
  | some h =>
    have hh := hv h rfl
    have e : upd (upd w.held h false) h false = upd w.held h false := undo' (upd_self _ _ _)
    simp only [drop, release, close, Out.bind, hh, if_true, e]

/-- **Each step** of a program leaves each open chip with one owner, and no handle is used after it was closed. -/
theorem step_owned {w : World} (o : Owned w) (p : Op) : step w p = .misuse ∨ ∃ w', step w p = .done w' ∧ Owned w' := by
  cases p with
  | make d =>
    dsimp only [step]
    cases hd : w.objs d with
    | some i => exact .inl rfl
    | none =>
      refine .inr ⟨_, rfl, ⟨?_, ?_, ?_, ?_, o.held, o.fresh⟩⟩
      · intro s i h hs hc
        simp only [upd] at hs
        split at hs
        · cases hs; cases hc
        · exact o.valid s i h hs hc
      · intro s t i j h hs ht hc hk
        simp only [upd] at hs ht
        split at hs
        · cases hs; cases hc
        · split at ht
          · cases ht; cases hk
          · exact o.one s t i j h hs ht hc hk
      · intro s i hs
        simp only [upd] at hs
        split at hs
        · cases hs; rfl
        · exact o.both s i hs
      · intro h hh
        obtain ⟨s, i, a, b⟩ := o.owner h hh
        refine ⟨s, i, ?_, b⟩
        show upd w.objs d _ s = _
        rw [upd_other _ _ (fun e => by rw [e, hd] at a; cases a), a]
  | opened d r =>
    dsimp only [step]
    cases hd : w.objs d with
    | some i => exact .inl rfl
    | none =>
      have same : upd w.objs d none = w.objs := by
        funext j
        by_cases e : j = d
        · rw [e, upd_self, hd]
        · rw [upd_other _ _ e]
      have later : Owned { w with next := w.next + 1 } := ⟨o.valid, o.one, o.both, o.owner, o.held, fun h hh => Nat.lt_succ_of_lt (o.fresh h hh)⟩
      refine .inr ?_
      rw [open_spec o r]
      cases r with
      | noChip => exact ⟨_, rfl, by show Owned { w with objs := upd w.objs d none }; rw [same]; exact o⟩
      | noLine => exact ⟨_, rfl, by show Owned { w with next := w.next + 1, objs := upd w.objs d none }; rw [same]; exact later⟩
      | refused => exact ⟨_, rfl, by show Owned { w with next := w.next + 1, objs := upd w.objs d none }; rw [same]; exact later⟩
      | given =>
        have nx : ∀ s i h, w.objs s = some i → i.chip = some h → h ≠ w.next := fun s i h hs hc e => by
          have := o.fresh h (o.valid s i h hs hc).1
          omega
        refine ⟨_, rfl, ⟨?_, ?_, ?_, ?_, ?_, ?_⟩⟩
        · intro s i h hs hc
          simp only [upd] at hs
          split at hs
          · cases hs; cases hc
            exact ⟨upd_self _ _ _, upd_self _ _ _⟩
          · have n := nx s i h hs hc
            show upd w.opened _ _ h = true ∧ upd w.held _ _ h = true
            rw [upd_other _ _ n, upd_other _ _ n]
            exact o.valid s i h hs hc
        · intro s t i j h hs ht hc hk
          simp only [upd] at hs ht
          split at hs
          · cases hs; cases hc
            split at ht
            · omega
            · exact absurd rfl (nx t j _ ht hk)
          · split at ht
            · cases ht; cases hk
              exact absurd rfl (nx s i _ hs hc)
            · exact o.one s t i j h hs ht hc hk
        · intro s i hs
          simp only [upd] at hs
          split at hs
          · cases hs; rfl
          · exact o.both s i hs
        · intro h hh
          by_cases e : h = w.next
          · exact ⟨d, _, upd_self _ _ _, by rw [e]⟩
          · change upd w.opened _ _ h = true at hh
            rw [upd_other _ _ e] at hh
            obtain ⟨s, i, a, b⟩ := o.owner h hh
            refine ⟨s, i, ?_, b⟩
            show upd w.objs d _ s = _
            rw [upd_other _ _ (fun e => by rw [e, hd] at a; cases a), a]
        · intro h hh
          by_cases e : h = w.next
          · rw [e]; exact upd_self _ _ _
          · change upd w.held _ _ h = true at hh
            rw [upd_other _ _ e] at hh
            show upd w.opened _ _ h = true
            rw [upd_other _ _ e]
            exact o.held h hh
        · intro h hh
          by_cases e : h = w.next
          · rw [e]; exact Nat.lt_succ_self _
          · change upd w.opened _ _ h = true at hh
            rw [upd_other _ _ e] at hh
            exact Nat.lt_succ_of_lt (o.fresh h hh)
  | moved d s =>
    dsimp only [step]
    cases hd : w.objs d with
    | some i => exact .inl rfl
    | none =>
      cases hs : w.objs s with
      | none => exact .inl rfl
      | some x =>
        have ne : s ≠ d := fun e => by rw [e, hd] at hs; cases hs
        -- what an object with a chip was before
        have was : ∀ u i h, upd (upd w.objs d (some (moveNew x).1)) s (some (moveNew x).2) u = some i → i.chip = some h → (u = d ∧ i = x) ∨ (u ≠ d ∧ u ≠ s ∧ w.objs u = some i) := by
          intro u i h hu hc
          simp only [upd] at hu
          split at hu
          · cases hu; cases hc
          · split at hu
            · cases hu; exact .inl ⟨by assumption, rfl⟩
            · exact .inr ⟨by assumption, by assumption, hu⟩
        refine .inr ⟨_, rfl, ⟨?_, ?_, ?_, ?_, o.held, o.fresh⟩⟩
        · intro u i h hu hc
          rcases was u i h hu hc with ⟨-, rfl⟩ | ⟨-, -, b⟩
          · exact o.valid s _ h hs hc
          · exact o.valid u i h b hc
        · intro u t i j h hu ht hc hk
          rcases was u i h hu hc with ⟨a, rfl⟩ | ⟨a, a', b⟩ <;> rcases was t j h ht hk with ⟨c, rfl⟩ | ⟨c, c', e⟩
          · rw [a, c]
          · exact absurd (o.one t s j _ h e hs hk hc) c'
          · exact absurd (o.one u s i _ h b hs hc hk) a'
          · exact o.one u t i j h b e hc hk
        · intro u i hu
          simp only [upd] at hu
          split at hu
          · cases hu; rfl
          · split at hu
            · cases hu; exact o.both s x hs
            · exact o.both u i hu
        · intro h hh
          obtain ⟨u, i, a, b⟩ := o.owner h hh
          by_cases e : u = s
          · rw [e, hs] at a
            cases a
            exact ⟨d, _, by show upd (upd _ _ _) _ _ d = _; rw [upd_other _ _ (Ne.symm ne), upd_self]; rfl, b⟩
          · refine ⟨u, i, ?_, b⟩
            show upd (upd _ _ _) _ _ u = _
            rw [upd_other _ _ e, upd_other _ _ (fun e => by rw [e, hd] at a; cases a), a]
  | assigned d s =>
    dsimp only [step]
    cases hd : w.objs d with
    | none => exact .inl rfl
    | some y =>
      cases hs : w.objs s with
      | none => exact .inl rfl
      | some x =>
        -- the objects change places
        let f : Nat → Nat := fun u => if u = s then d else if u = d then s else u
        have ff : ∀ u, f (f u) = u := by
          intro u
          simp only [f]
          split <;> split <;> (try split) <;> omega
        have was : ∀ u, upd (upd w.objs d (some (moveAssign y x).1)) s (some (moveAssign y x).2) u = w.objs (f u) := by
          intro u
          simp only [upd, f, moveAssign]
          split
          · exact hd.symm
          · split
            · exact hs.symm
            · rfl
        refine .inr ⟨_, rfl, ⟨?_, ?_, ?_, ?_, o.held, o.fresh⟩⟩
        · intro u i h hu hc
          exact o.valid (f u) i h ((was u).symm.trans hu) hc
        · intro u t i j h hu ht hc hk
          have e := o.one (f u) (f t) i j h ((was u).symm.trans hu) ((was t).symm.trans ht) hc hk
          rw [← ff u, e, ff]
        · intro u i hu
          exact o.both (f u) i ((was u).symm.trans hu)
        · intro h hh
          obtain ⟨u, i, a, b⟩ := o.owner h hh
          exact ⟨f u, i, (was (f u)).trans (by rw [ff]; exact a), b⟩
  | destroyed s =>
    dsimp only [step]
    cases hs : w.objs s with
    | none => exact .inl rfl
    | some x =>
      refine .inr ?_
      show ∃ w', (drop w x).bind _ = _ ∧ _
      rw [drop_spec (o.both s x hs) fun h hc => (o.valid s x h hs hc).1]
      have was : ∀ u i, upd w.objs s none u = some i → u ≠ s ∧ w.objs u = some i := by
        intro u i hu
        simp only [upd] at hu
        split at hu
        · cases hu
        · exact ⟨by assumption, hu⟩
      have away : ∀ h, x.chip ≠ some h → w.opened h = true → ∃ u i, upd w.objs s none u = some i ∧ i.chip = some h := by
        intro h hx hh
        obtain ⟨u, i, a, b⟩ := o.owner h hh
        refine ⟨u, i, ?_, b⟩
        rw [upd_other _ _ (fun e => by rw [e, hs] at a; cases a; exact hx b), a]
      obtain ⟨c, l⟩ := x
      cases c with
      | none =>
        exact ⟨_, rfl, ⟨fun u i h hu hc => o.valid u i h (was u i hu).2 hc, fun u t i j h hu ht hc hk => o.one u t i j h (was u i hu).2 (was t j ht).2 hc hk,
          fun u i hu => o.both u i (was u i hu).2, fun h hh => away h (fun e => (nomatch e)) hh, o.held, o.fresh⟩⟩
      | some k =>
        have op : ∀ h, upd w.opened k false h = true → h ≠ k ∧ w.opened h = true := by
          intro h hh
          simp only [upd] at hh
          split at hh
          · cases hh
          · exact ⟨by assumption, hh⟩
        refine ⟨_, rfl, ⟨?_, fun u t i j h hu ht hc hk => o.one u t i j h (was u i hu).2 (was t j ht).2 hc hk, fun u i hu => o.both u i (was u i hu).2, ?_, ?_, fun h hh => o.fresh h (op h hh).2⟩⟩
        · intro u i h hu hc
          obtain ⟨a, b⟩ := was u i hu
          have n : h ≠ k := fun e => a (o.one u s i _ h b hs hc (by rw [e]))
          show upd w.opened _ _ h = true ∧ upd w.held _ _ h = true
          rw [upd_other _ _ n, upd_other _ _ n]
          exact o.valid u i h b hc
        · intro h hh
          obtain ⟨a, b⟩ := op h hh
          exact away h (fun e => a (Option.some.inj e).symm) b
        · intro h hh
          change upd w.held k false h = true at hh
          show upd w.opened k false h = true
          by_cases e : h = k
          · rw [e, upd_self] at hh
            cases hh
          · rw [upd_other _ _ e] at hh ⊢
            exact o.held h hh
  | read s =>
    dsimp only [step]
    cases hs : w.objs s with
    | none => exact .inl rfl
    | some x =>
      refine .inr ⟨w, ?_, o⟩
      show (readInput w x).bind _ = _
      unfold readInput
      cases hl : x.line with
      | none => rfl
      | some h =>
        simp only [(o.valid s x h hs ((o.both s x hs).symm.trans hl)).1, if_true, Out.bind]
  | levels f => exact .inr ⟨_, rfl, ⟨o.valid, o.one, o.both, o.owner, o.held, o.fresh⟩⟩

theorem run_owned {w : World} (o : Owned w) (ps : List Op) : run w ps = .misuse ∨ ∃ w', run w ps = .done w' ∧ Owned w' := by
  induction ps generalizing w with
  | nil => exact .inr ⟨w, rfl, o⟩
  | cons p ps ih =>
    unfold run
    rcases step_owned o p with e | ⟨w', e, o'⟩
    · rw [e]; exact .inl rfl
    · rw [e]; exact ih o'

/-- **No handle is used after it was closed, none is closed twice,** whatever a program does with the objects. -/
theorem never_undefined (ps : List Op) : run start ps ≠ .undefined := by
  rcases run_owned start_owned ps with e | ⟨w', e, -⟩ <;> rw [e] <;> exact fun h => (nomatch h)

/-- **No handle is lost:** when all objects have been destroyed, all chips are closed and all lines released. -/
theorem none_lost {ps : List Op} {w : World} (h : run start ps = .done w) (hd : ∀ s, w.objs s = none) (c : Nat) : w.opened c = false ∧ w.held c = false := by
  rcases run_owned start_owned ps with e | ⟨w', e, o⟩
  · rw [e] at h; cases h
  · rw [e] at h
    cases h
    have a : w.opened c = false := by
      cases k : w.opened c with
      | false => rfl
      | true =>
        obtain ⟨s, i, a, -⟩ := o.owner c k
        rw [hd s] at a
        cases a
    refine ⟨a, ?_⟩
    cases k : w.held c with
    | false => rfl
    | true => rw [o.held c k] at a; cases a

/-- **While they live** no two objects share a chip, and an object reads the level of its line; one without a line reads false. -/
theorem reads_own {ps : List Op} {w : World} (h : run start ps = .done w) {s : Nat} {i : Input} (hs : w.objs s = some i) :
    readInput w i = .done (match i.chip with | some c => w.level c | none => false) ∧ ∀ t j c, w.objs t = some j → i.chip = some c → j.chip = some c → t = s := by
  rcases run_owned start_owned ps with e | ⟨w', e, o⟩
  · rw [e] at h; cases h
  · rw [e] at h
    cases h
    refine ⟨?_, fun t j c ht hi hj => o.one t s j i c ht hs hj hi⟩
    unfold readInput
    rw [o.both s i hs]
    cases hc : i.chip with
    | none => rfl
    | some c =>
      obtain ⟨a, b⟩ := o.valid s i c hs hc
      simp only [a, b, if_true, Bool.true_and]

/-- **`open`** gives an object exactly if libgpiod gives the line, for a chip that no other object has; the object that it is moved to reads that line, also after the first one is gone. -/
theorem open_gives {ps : List Op} {w : World} (h : run start ps = .done w) {d : Nat} (hd : w.objs d = none) (r : Reply) :
    ∃ w', step w (.opened d r) = .done w' ∧ (r ≠ .given → w'.objs = w.objs ∧ w'.opened = w.opened ∧ w'.held = w.held) ∧
      (r = .given → ∃ c, (∀ t j, w.objs t = some j → j.chip ≠ some c) ∧ w'.objs d = some ⟨some c, some c⟩ ∧
        ∀ e y, e ≠ d → w.objs e = some y → ∃ w'', run w' [.assigned e d, .destroyed d] = .done w'' ∧ w''.objs e = some ⟨some c, some c⟩ ∧ w''.objs d = none ∧ w''.opened c = true ∧ w''.held c = true ∧
          ∀ k, y.chip = some k → w''.opened k = false) := by
  rcases run_owned start_owned ps with e | ⟨w0, e, o⟩
  · rw [e] at h; cases h
  · rw [e] at h
    cases h
    have same : upd w.objs d none = w.objs := by
      funext j
      by_cases e : j = d
      · rw [e, upd_self, hd]
      · rw [upd_other _ _ e]
    have st : ∀ x, openInput w r = .done x → step w (.opened d r) = .done { x.1 with objs := upd x.1.objs d x.2 } := by
      intro x hx
      simp only [step, hd, hx, Out.bind]
    refine ⟨_, st _ (open_spec o r), ?_, ?_⟩
    · intro hr
      cases r with
      | given => exact absurd rfl hr
      | noChip => exact ⟨same, rfl, rfl⟩
      | noLine => exact ⟨same, rfl, rfl⟩
      | refused => exact ⟨same, rfl, rfl⟩
    · rintro rfl
      have nx : ∀ t j, w.objs t = some j → j.chip ≠ some w.next := fun t j ht hj => Nat.lt_irrefl _ (o.fresh _ (o.valid t j _ ht hj).1)
      refine ⟨w.next, nx, upd_self _ _ _, ?_⟩
      intro e y he hy
      have hv : ∀ k, y.chip = some k → w.opened k = true ∧ k ≠ w.next := fun k hk => ⟨(o.valid e y k hy hk).1, fun h => nx e y hy (h ▸ hk)⟩
      have hb := o.both e y hy
      obtain ⟨yc, yl⟩ := y
      obtain rfl : yl = yc := hb
      have ed : upd w.objs d (some ⟨some w.next, some w.next⟩) e = some ⟨yl, yl⟩ := (upd_other _ _ he).trans hy
      cases yl with
      | none =>
        refine ⟨_, by simp only [run, step, upd_self, ed, moveAssign, Out.bind, drop]; rfl, ?_, upd_self _ _ _, upd_self _ _ _, upd_self _ _ _, fun k hk => (nomatch hk)⟩
        show upd (upd (upd _ _ _) _ _) _ _ e = _
        rw [upd_other _ _ he, upd_other _ _ he, upd_self]
      | some k =>
        obtain ⟨k1, k2⟩ := hv k rfl
        have k3 : upd w.opened w.next true k = true := (upd_other _ _ k2).trans k1
        refine ⟨_, by simp only [run, step, upd_self, ed, moveAssign, Out.bind, drop, release, close, k3, if_true]; rfl, ?_, upd_self _ _ _, ?_, ?_, ?_⟩
        · show upd (upd (upd _ _ _) _ _) _ _ e = _
          rw [upd_other _ _ he, upd_other _ _ he, upd_self]
        · show upd (upd _ _ _) _ _ w.next = true
          rw [upd_other _ _ (Ne.symm k2), upd_self]
        · show upd (upd (upd _ _ _) _ _) _ _ w.next = true
          rw [upd_other _ _ (Ne.symm k2), upd_other _ _ (Ne.symm k2), upd_self]
        · intro q hq
          cases hq
          exact upd_self _ _ _

/-! ## An example -/

/-- As in control_panel.cpp:118-120: an empty object in the map, a line opened and assigned to it; then the same with another line, and a line that is refused. -/
def panel : List Op :=
  [.make 0, .opened 1 .given, .assigned 0 1, .destroyed 1, .opened 1 .given, .assigned 0 1, .destroyed 1, .opened 2 .refused, .levels (fun c => c == 1), .read 0]

example : (match run start panel with
    | .done w => some (w.objs 0, w.objs 1, w.objs 2, [0, 1, 2].map w.opened, [0, 1, 2].map w.held, w.level 1)
    | _ => none) = some (some ⟨some 1, some 1⟩, none, none, [false, true, false], [false, true, false], true) := rfl

/-- When the map is gone nothing is left. -/
example : (match run start (panel ++ [.destroyed 0]) with
    | .done w => some (w.objs 0, [0, 1, 2].map w.opened)
    | _ => none) = some (none, [false, false, false]) := by decide

end Verif.Gpio
