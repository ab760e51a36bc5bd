import Verif.MsgBus.Bus

/-!
# Message bus: lookup by name (C15) and callbacks (C16)
-/

namespace Verif.MsgBus

open HeapList

inductive Op where
  | initTopic (t : Nat)
  | advertise (t : Nat) (n : Name)
  | register (c : Nat)
deriving DecidableEq, Repr

def step (fuel : Nat) (b : Bus) : Op → Except Err Bus
  | .initTopic t => .ok (topicInit b t)
  | .advertise t n => advertise fuel b t n
  | .register c => .ok (registerCb b c)

/-- Run a history, newest operation first. -/
def run (fuel : Nat) (b : Bus) : List Op → Except Err Bus
  | [] => .ok (busInit b)
  | op :: h => do
    let b ← run fuel b h
    step fuel b op

/-! ## Specification -/

/-- Topics advertised, newest first, with the names given. -/
def ads : List Op → List (Nat × Name)
  | [] => []
  | .advertise t n :: h => (t, n) :: ads h
  | _ :: h => ads h

/-- Callbacks registered, newest first. -/
def cbs : List Op → List Nat
  | [] => []
  | .register c :: h => c :: cbs h
  | _ :: h => cbs h

/-- Topics are initialised before being advertised, never touched by an initialisation again, and
advertised once; callback records are registered once. -/
def Proper : List Op → Prop
  | [] => True
  | .initTopic t :: h => t ∉ (ads h).map Prod.fst ∧ Proper h
  | .advertise t _ :: h => .initTopic t ∈ h ∧ t ∉ (ads h).map Prod.fst ∧ Proper h
  | .register c :: h => c ∉ cbs h ∧ Proper h

/-- Topics advertised after the registration of callback `c`, oldest first. -/
def after (c : Nat) : List Op → List Nat
  | [] => []
  | .advertise t _ :: h => if c ∈ cbs h then after c h ++ [t] else []
  | _ :: h => after c h

/-! ## Proofs -/

theorem topicByName_spec {next : Nat → Option Nat} {name : Nat → Name} (q : Name) (l : List Nat) :
    ∀ (fuel : Nat) (p : Option Nat), l.length ≤ fuel → IsList next p l →
      topicByName next name q fuel p = .ok (l.find? fun t => decide (q = name t)) := by
  induction l with
  | nil => intro fuel p _ h; rw [show p = none from h]; cases fuel <;> rfl
  | cons t l ih =>
    intro fuel p hf h
    obtain ⟨rfl, h2⟩ := h
    cases fuel with
    | zero => simp at hf
    | succ f =>
      simp only [topicByName, List.find?_cons]
      by_cases hq : q = name t
      · simp [hq]
      · simp only [if_neg hq, decide_eq_false hq]
        exact ih f _ (by simpa using hf) h2

theorem foreachLoop_spec {next : Nat → Option Nat} (l : List Nat) :
    ∀ (fuel : Nat) (p : Option Nat), l.length ≤ fuel → IsList next p l → foreachLoop next fuel p = .ok l := by
  induction l with
  | nil => intro fuel p _ h; rw [show p = none from h]; cases fuel <;> rfl
  | cons t l ih =>
    intro fuel p hf h
    obtain ⟨rfl, h2⟩ := h
    cases fuel with
    | zero => simp at hf
    | succ f =>
      simp only [foreachLoop, ih f _ (by simpa using hf) h2]
      rfl

theorem callLoop_spec {next : Nat → Option Nat} (t : Nat) (l : List Nat) :
    ∀ (fuel : Nat) (p : Option Nat), l.length ≤ fuel → IsList next p l →
      callLoop next t fuel p = .ok (l.map fun c => (c, t)) := by
  induction l with
  | nil => intro fuel p _ h; rw [show p = none from h]; cases fuel <;> rfl
  | cons c l ih =>
    intro fuel p hf h
    obtain ⟨rfl, h2⟩ := h
    cases fuel with
    | zero => simp at hf
    | succ f =>
      simp only [callLoop, ih f _ (by simpa using hf) h2]
      rfl

structure Inv (b : Bus) (h : List Op) : Prop where
  topics : IsList b.next b.head ((ads h).map Prod.fst)
  nodup : ((ads h).map Prod.fst).Nodup
  names : ∀ p ∈ ads h, b.name p.1 = p.2.take nameMax
  fresh : ∀ t, .initTopic t ∈ h → t ∉ (ads h).map Prod.fst → b.next t = none
  callbacks : IsList b.cbNext b.cbHead (cbs h)
  cbNodup : (cbs h).Nodup
  calls : ∀ c, ((b.calls.filter fun p => p.1 = c).map Prod.snd) = after c h

theorem after_nil_of_not_mem (c : Nat) : ∀ h, c ∉ cbs h → after c h = []
  | [], _ => rfl
  | .advertise t n :: h, hc => by simp only [after]; rw [if_neg]; exact hc
  | .initTopic t :: h, hc => by simp only [after]; exact after_nil_of_not_mem c h hc
  | .register c' :: h, hc => by
    simp only [cbs, List.mem_cons, not_or] at hc
    simp only [after]; exact after_nil_of_not_mem c h hc.2

theorem run_inv (fuel : Nat) (b0 : Bus) (h : List Op) (hp : Proper h) (hf : (cbs h).length ≤ fuel) :
    ∃ b, run fuel b0 h = .ok b ∧ Inv b h := by
  induction h with
  | nil =>
    exact ⟨busInit b0, rfl, ⟨rfl, by simp [ads], by simp [ads], by simp, rfl, by simp [cbs],
      by intro c; simp [busInit, after]⟩⟩
  | cons op h ih =>
    cases op with
    | initTopic t =>
      obtain ⟨b, h1, hi⟩ := ih hp.2 hf
      have ht := hp.1
      refine ⟨topicInit b t, by simp only [run, h1]; rfl, ⟨?_, hi.nodup, ?_, ?_, hi.callbacks, hi.cbNodup, hi.calls⟩⟩
      · exact isList_upd none ht hi.topics
      · intro p hpm
        have hne : p.1 ≠ t := by
          rintro rfl
          exact ht (List.mem_map_of_mem hpm)
        simp only [topicInit, upd_ne _ _ hne]
        exact hi.names p hpm
      · intro t' hm hnm
        simp only [topicInit]
        by_cases he : t' = t
        · subst he; rw [upd_self]
        · rw [upd_ne _ _ he]
          simp only [List.mem_cons, Op.initTopic.injEq, he, false_or] at hm
          exact hi.fresh t' hm hnm
    | register c =>
      obtain ⟨b, h1, hi⟩ := ih hp.2 (by simp only [cbs, List.length_cons] at hf; omega)
      have hc := hp.1
      refine ⟨registerCb b c, by simp only [run, h1]; rfl, ⟨hi.topics, hi.nodup, hi.names, ?_, ?_, ?_, hi.calls⟩⟩
      · intro t' hm hnm
        simp only [List.mem_cons, reduceCtorEq, false_or] at hm
        exact hi.fresh t' hm hnm
      · simp only [cbs, registerCb]
        refine ⟨rfl, ?_⟩
        rw [upd_self]
        exact isList_upd _ hc hi.callbacks
      · exact List.nodup_cons.mpr ⟨hc, hi.cbNodup⟩
    | advertise t n =>
      obtain ⟨hinit, ht, hp'⟩ := hp
      obtain ⟨b, h1, hi⟩ := ih hp' hf
      have hcl := callLoop_spec t (cbs h) fuel b.cbHead hf hi.callbacks
      have hadv : advertise fuel b t n = .ok
          { b with name := upd b.name t (n.take nameMax), next := if b.head ≠ none then upd b.next t b.head else b.next,
                   head := some t, calls := b.calls ++ (cbs h).map fun c => (c, t) } := by
        unfold advertise
        by_cases hh : b.head ≠ none
        · simp only [if_pos hh, hcl]; rfl
        · simp only [if_neg hh, hcl]; rfl
      have hrun := (show run fuel b0 (.advertise t n :: h) = advertise fuel b t n by
        simp only [run, h1]; rfl).trans hadv
      refine ⟨_, hrun, ⟨?_, ?_, ?_, ?_, hi.callbacks, hi.cbNodup, ?_⟩⟩
      · simp only [ads, List.map_cons]
        refine ⟨rfl, ?_⟩
        by_cases hh : b.head ≠ none
        · simp only [if_pos hh, upd_self]
          exact isList_upd _ ht hi.topics
        · simp only [if_neg hh]
          have hn : b.head = none := by simpa using hh
          have hnil : (ads h).map Prod.fst = [] := isList_head_none (hn ▸ hi.topics)
          rw [hnil]
          exact hi.fresh t hinit ht
      · exact List.nodup_cons.mpr ⟨ht, hi.nodup⟩
      · intro p hpm
        simp only [ads, List.mem_cons] at hpm
        rcases hpm with rfl | hpm
        · simp only [upd_self]
        · have hne : p.1 ≠ t := by
            rintro rfl
            exact ht (List.mem_map_of_mem hpm)
          simp only [upd_ne _ _ hne]
          exact hi.names p hpm
      · intro t' hm hnm
        simp only [ads, List.map_cons, List.mem_cons, not_or] at hnm
        simp only [List.mem_cons, reduceCtorEq, false_or] at hm
        simp only
        split
        · rw [upd_ne _ _ hnm.1]; exact hi.fresh t' hm hnm.2
        · exact hi.fresh t' hm hnm.2
      · intro c
        simp only [List.filter_append, List.map_append, hi.calls c, after]
        by_cases hc : c ∈ cbs h
        · rw [if_pos hc]
          congr 1
          have : ∀ l : List Nat, l.Nodup → c ∈ l →
              (((l.map fun c => (c, t)).filter fun p : Nat × Nat => p.1 = c).map Prod.snd) = [t] := by
            intro l
            induction l with
            | nil => simp
            | cons x l ih =>
              intro hnd hm
              rw [List.nodup_cons] at hnd
              by_cases hx : x = c
              · subst hx
                rw [List.map_cons, List.filter_cons_of_pos (by simp), List.map_cons]
                have : (l.map fun c => (c, t)).filter (fun p : Nat × Nat => decide (p.1 = x)) = [] := by
                  rw [List.filter_eq_nil_iff]
                  intro p hpm
                  obtain ⟨y, hy, rfl⟩ := List.mem_map.mp hpm
                  have : y ≠ x := by rintro rfl; exact hnd.1 hy
                  simpa using this
                rw [this]; rfl
              · rw [List.map_cons, List.filter_cons_of_neg (by simpa using hx)]
                apply ih hnd.2
                rcases List.mem_cons.mp hm with h' | h'
                · exact absurd h'.symm hx
                · exact h'
          exact this _ hi.cbNodup hc
        · rw [if_neg hc, after_nil_of_not_mem c h hc, List.nil_append]
          have : ((cbs h).map fun c => (c, t)).filter (fun p : Nat × Nat => decide (p.1 = c)) = [] := by
            rw [List.filter_eq_nil_iff]
            intro p hpm
            obtain ⟨y, hy, rfl⟩ := List.mem_map.mp hpm
            have : y ≠ c := by rintro rfl; exact hc hy
            simpa using this
          rw [this]; rfl

/-! ## C15 -/

/-- C15: lookup returns the most recently advertised topic whose (truncated) name is the one asked for,
and NULL if there is none; it terminates. -/
theorem find_latest (fuel : Nat) (b0 : Bus) (h : List Op) (hp : Proper h) (hf : (cbs h).length ≤ fuel)
    (fuel' : Nat) (hf' : (ads h).length ≤ fuel') (q : Name) :
    ∃ b, run fuel b0 h = .ok b ∧
      findTopic fuel' b q = .ok (((ads h).find? fun p => p.2.take nameMax = q).map Prod.fst) := by
  obtain ⟨b, h1, hi⟩ := run_inv fuel b0 h hp hf
  refine ⟨b, h1, ?_⟩
  unfold findTopic
  rw [topicByName_spec q _ fuel' _ (by simpa using hf') hi.topics]
  have hn := hi.names
  generalize ads h = l at hn
  congr 1
  induction l with
  | nil => rfl
  | cons p l ih =>
    simp only [List.map_cons, List.find?_cons, hn p (by simp)]
    by_cases hq : p.2.take nameMax = q
    · simp [hq]
    · have : ¬ q = p.2.take nameMax := fun h => hq h.symm
      simp only [decide_eq_false this, decide_eq_false hq]
      exact ih (fun p hp => hn p (by simp [hp]))

/-- C15: names of at most 64 characters are found unmodified: a topic just advertised under `n` is the
one returned for `n`, and lookups of all other names are unaffected by the advertisement. -/
theorem advertise_no_hiding (fuel : Nat) (b0 : Bus) (h : List Op) (t : Nat) (n : Name) (hn : n.length ≤ nameMax)
    (hp : Proper (.advertise t n :: h)) (hf : (cbs h).length ≤ fuel) (fuel' : Nat)
    (hf' : (ads h).length + 1 ≤ fuel') :
    ∃ b b', run fuel b0 h = .ok b ∧ run fuel b0 (.advertise t n :: h) = .ok b' ∧
      findTopic fuel' b' n = .ok (some t) ∧ ∀ q, q ≠ n → findTopic fuel' b' q = findTopic fuel' b q := by
  obtain ⟨b', h1, h2⟩ := find_latest fuel b0 _ hp hf fuel' (by simpa [ads] using hf') n
  have hp' : Proper h := hp.2.2
  obtain ⟨b, h3, _⟩ := find_latest fuel b0 h hp' hf fuel' (by omega) n
  refine ⟨b, b', h3, h1, ?_, ?_⟩
  · rw [h2]
    simp [ads, List.take_of_length_le hn]
  · intro q hq
    obtain ⟨b'', h4, h5⟩ := find_latest fuel b0 _ hp hf fuel' (by simpa [ads] using hf') q
    rw [h1] at h4; injection h4 with h4; subst h4
    obtain ⟨b''', h6, h7⟩ := find_latest fuel b0 h hp' hf fuel' (by omega) q
    rw [h3] at h6; injection h6 with h6; subst h6
    rw [h5, h7]
    simp only [ads, List.find?_cons]
    rw [show decide (n.take nameMax = q) = false by
      rw [List.take_of_length_le hn]; exact decide_eq_false (Ne.symm hq)]

/-- C15: iteration visits every advertised topic exactly once, newest first. -/
theorem foreach_all (fuel : Nat) (b0 : Bus) (h : List Op) (hp : Proper h) (hf : (cbs h).length ≤ fuel)
    (fuel' : Nat) (hf' : (ads h).length ≤ fuel') :
    ∃ b, run fuel b0 h = .ok b ∧ foreachTopic fuel' b = .ok ((ads h).map Prod.fst) ∧
      ((ads h).map Prod.fst).Nodup := by
  obtain ⟨b, h1, hi⟩ := run_inv fuel b0 h hp hf
  exact ⟨b, h1, foreachLoop_spec _ fuel' _ (by simpa using hf') hi.topics, hi.nodup⟩

example : Proper [.advertise 2 [98], .register 7, .advertise 1 [97], .initTopic 2, .initTopic 1] := by
  simp [Proper, ads, cbs]

/-- A topic advertised under a name of more than 64 characters cannot be found under that name. -/
theorem long_name_not_found (fuel : Nat) (b0 : Bus) (h : List Op) (hp : Proper h) (hf : (cbs h).length ≤ fuel)
    (q : Name) (hq : nameMax < q.length) :
    ∃ b, run fuel b0 h = .ok b ∧ findTopic (ads h).length b q = .ok none := by
  obtain ⟨b, h1, h2⟩ := find_latest fuel b0 h hp hf _ (Nat.le_refl _) q
  refine ⟨b, h1, ?_⟩
  rw [h2]
  have : (ads h).find? (fun p => decide (p.2.take nameMax = q)) = none := by
    rw [List.find?_eq_none]
    intro p _
    simp only [decide_eq_true_eq]
    rintro rfl
    simp only [List.length_take] at hq
    omega
  rw [this]; rfl

/-- `Proper` is needed: advertising the same topic twice makes it its own successor, and the lookup of
an absent name never terminates. -/
theorem advertise_twice_loops (b0 : Bus) (fuel : Nat) :
    ∃ b, run 0 b0 [.advertise 1 [97], .advertise 1 [97], .initTopic 1] = .ok b ∧
      findTopic fuel b [98] = .error .fuel := by
  refine ⟨_, rfl, ?_⟩
  have key : ∀ (f : Nat) (next : Nat → Option Nat) (name : Nat → Name), next 1 = some 1 → name 1 = [97] →
      topicByName next name [98] f (some 1) = .error .fuel := by
    intro f
    induction f with
    | zero => intros; rfl
    | succ f ih =>
      intro next name h1 h2
      simp only [topicByName, h1, h2]
      rw [if_neg (by decide)]
      exact ih _ _ h1 h2
  exact key fuel _ _ rfl rfl

/-! ## C16 -/

/-- C16: the invocations of each callback are exactly the topics advertised after its registration, in
order of advertisement, once each; callbacks never registered are never called. -/
theorem callbacks_once (fuel : Nat) (b0 : Bus) (h : List Op) (hp : Proper h) (hf : (cbs h).length ≤ fuel) (c : Nat) :
    ∃ b, run fuel b0 h = .ok b ∧ (b.calls.filter fun p => p.1 = c).map Prod.snd = after c h := by
  obtain ⟨b, h1, hi⟩ := run_inv fuel b0 h hp hf
  exact ⟨b, h1, hi.calls c⟩

/-- `after` in words: registered at `.register c` with `older` before and `newer` after it, the topics
are those of the advertisements in `newer`, oldest first. -/
theorem after_eq (c : Nat) (newer older : List Op) (hp : Proper (newer ++ .register c :: older)) :
    after c (newer ++ .register c :: older) = ((ads newer).map Prod.fst).reverse := by
  have hmem : ∀ l : List Op, c ∈ cbs (l ++ .register c :: older) := by
    intro l
    induction l with
    | nil => simp [cbs]
    | cons op l ih => cases op <;> simp [cbs, ih]
  induction newer with
  | nil =>
    simp only [List.nil_append, after, ads, List.map_nil, List.reverse_nil]
    exact after_nil_of_not_mem c older hp.1
  | cons op newer ih =>
    cases op with
    | initTopic t => exact ih hp.2
    | register c' => exact ih hp.2
    | advertise t n =>
      simp only [List.cons_append, after, if_pos (hmem newer), ads, List.map_cons, List.reverse_cons]
      rw [ih hp.2.2]

/-- Two callbacks registered at different times. -/
example : after 7 [.advertise 3 [99], .register 8, .advertise 2 [98], .register 7, .advertise 1 [97]] = [2, 3] ∧
    after 8 [.advertise 3 [99], .register 8, .advertise 2 [98], .register 7, .advertise 1 [97]] = [3] := by
  decide

end Verif.MsgBus
