import Verif.Gateway.Inv

/-!
# Gateway: properties (C105, C106)
-/

namespace Verif.Gateway

open BusEnum (Name)
open MsgBus (ads)

/-- Start and a sequence of operations -/
def exec (b0 : MsgBus.Bus) (cap enCap : Nat) (ops : List Op) : Except Err Gw := do
  let g ← init b0 cap enCap
  run g ops

theorem exec_inv (b0 : MsgBus.Bus) {cap enCap : Nat} (h2 : enCap < 65536) (ops : List Op) (ha : AllAllowed cap enCap Spec.init ops) :
    ∃ g h, exec b0 cap enCap ops = .ok g ∧ Inv b0 g (Spec.init.run cap ops) h := by
  obtain ⟨g0, h0, e0, c1, c2, I0⟩ := init_inv b0 cap enCap h2
  obtain ⟨g, h, e, -, -, I⟩ := run_inv ops I0 (by rw [c1, c2]; exact ha)
  rw [c1] at I
  refine ⟨g, h, ?_, I⟩
  unfold exec
  rw [e0]
  exact e

/-! ## Topics (C105) -/

theorem take_eq {n q : Name} (hq : q.length < 64) (h : n.take 64 = q) : n = q := by
  have hl := congrArg List.length h
  rw [List.length_take] at hl
  rw [List.take_of_length_le (by omega)] at h
  exact h

variable {b0 : MsgBus.Bus} {g : Gw} {σ : Spec} {h : List MsgBus.Op}

theorem lookup_known (I : Inv b0 g σ h) (p : Proxy) (b : Name) (hq : (topicName p b).length < 64) (he : topicName p b ≠ str "/encoders") (ho : topicName p b ∉ σ.others)
    (hc : ∀ e ∈ σ.heard, topicName e.1 e.2.1 = topicName p b → e.1 = p ∧ e.2.1 = b) : lookup g (topicName p b) = .ok ((σ.last p b).map some) := by
  rw [lookup_ok I.hist]
  congr 1
  have hlast : σ.lastT p (topicName p b) = σ.last p b := by
    unfold Spec.lastT Spec.last
    congr 1
    have : ∀ l : List (Proxy × Name × Payload), (∀ e ∈ l, topicName e.1 e.2.1 = topicName p b → e.1 = p ∧ e.2.1 = b) →
        l.find? (fun e => e.1 = p ∧ topicName p e.2.1 = topicName p b) = l.find? (fun e => e.1 = p ∧ e.2.1 = b) := by
      intro l
      induction l with
      | nil => intro _; rfl
      | cons e l ih =>
        intro hl
        have ih' := ih (fun e' he' => hl e' (List.mem_cons_of_mem _ he'))
        by_cases c : e.1 = p ∧ e.2.1 = b
        · rw [List.find?_cons_of_pos (by simpa using ⟨c.1, by rw [c.2]⟩), List.find?_cons_of_pos (by simpa using c)]
        · have c' : ¬ (e.1 = p ∧ topicName p e.2.1 = topicName p b) := by
            rintro ⟨c1, c2⟩
            exact c (hl e List.mem_cons_self (by rw [c1]; exact c2))
          rw [List.find?_cons_of_neg (by simpa using c'), List.find?_cons_of_neg (by simpa using c), ih']
    exact this _ hc
  cases hf : (ads h).find? (fun a => decide (a.2.take 64 = topicName p b)) with
  | none =>
    have hnone := List.find?_eq_none.mp hf
    have hmap : find (topicName p b) (g.maps p) = none := by
      cases hm : find (topicName p b) (g.maps p) with
      | none => rfl
      | some t =>
        exact absurd (by simpa using List.take_of_length_le (Nat.le_of_lt hq)) (hnone _ (I.known _ _ _ hm).1)
    have hun := I.unknown _ _ hmap
    have : σ.last p b = none := by
      unfold Spec.last
      rw [List.find?_eq_none.mpr]
      · rfl
      · intro e he' hh
        simp only [decide_eq_true_eq] at hh
        exact hun e he' hh.1 (by rw [hh.2])
    rw [this]
    rfl
  | some a =>
    have hmem := List.mem_of_find?_eq_some hf
    have hname := List.find?_some hf
    simp only [decide_eq_true_eq] at hname
    have hn := take_eq hq hname
    rcases I.origin a hmem with h1 | ⟨p', h1⟩ | h1
    · rw [h1] at hn
      exact absurd hn.symm he
    · obtain ⟨-, -, h3, b', x', h4, h5⟩ := I.known _ _ _ h1
      obtain ⟨e1, e2⟩ := hc _ h4 (by rw [← hn]; exact h5)
      simp only at e1 e2
      subst e1
      rw [hn, hlast] at h3
      simp only [Option.map_some, h3]
      have hne : σ.last p' b ≠ none := by
        unfold Spec.last
        intro hc'
        rw [Option.map_eq_none_iff, List.find?_eq_none] at hc'
        exact hc' _ h4 (by simp [e2])
      obtain ⟨y, hy⟩ := Option.ne_none_iff_exists'.mp hne
      rw [hy]
      rfl
    · rw [hn] at h1
      exact absurd h1 ho

/-- C105: for every sequence of discoveries, messages, new topics and other operations within the limits, from start: nothing undefined happens, and whoever reads the topic of a
board gets the last message that the board sent when it was known, or no topic if there was none. The name of the topic has to be shorter than 64 characters and not that of
another topic. Missing: names that clash or are cut, and more boards than fit, for which it is false (`actuator_names_clash`, `robot_no_distance`). -/
theorem forward_partial (b0 : MsgBus.Bus) {cap enCap : Nat} (h2 : enCap < 65536) (ops : List Op) (ha : AllAllowed cap enCap Spec.init ops) :
    ∃ g, exec b0 cap enCap ops = .ok g ∧ ∀ p b, (topicName p b).length < 64 → topicName p b ≠ str "/encoders" → topicName p b ∉ (Spec.init.run cap ops).others →
      (∀ e ∈ (Spec.init.run cap ops).heard, topicName e.1 e.2.1 = topicName p b → e.1 = p ∧ e.2.1 = b) →
      lookup g (topicName p b) = .ok (((Spec.init.run cap ops).last p b).map some) := by
  obtain ⟨g, h, e, I⟩ := exec_inv b0 h2 ops ha
  exact ⟨g, e, fun p b => lookup_known I p b⟩

theorem lookup_unheard (I : Inv b0 g σ h) (q : Name) (hq : q.length < 64) (he : q ≠ str "/encoders") (ho : q ∉ σ.others)
    (hc : ∀ e ∈ σ.heard, topicName e.1 e.2.1 ≠ q) : lookup g q = .ok none := by
  rw [lookup_ok I.hist]
  have : (ads h).find? (fun a => decide (a.2.take 64 = q)) = none := by
    rw [List.find?_eq_none]
    intro a hmem hname
    simp only [decide_eq_true_eq] at hname
    have hn := take_eq hq hname
    rcases I.origin a hmem with h1 | ⟨p', h1⟩ | h1
    · rw [h1] at hn
      exact he hn.symm
    · obtain ⟨-, -, -, b', x', h4, h5⟩ := I.known _ _ _ h1
      exact hc _ h4 (h5.trans hn)
    · rw [hn] at h1
      exact ho h1
  rw [this]
  rfl

/-- C105: no topic appears out of nothing: a name that no known board has, according to its messages, and nobody else made, is not found. -/
theorem nothing_else (b0 : MsgBus.Bus) {cap enCap : Nat} (h2 : enCap < 65536) (ops : List Op) (ha : AllAllowed cap enCap Spec.init ops) :
    ∃ g, exec b0 cap enCap ops = .ok g ∧ ∀ q, q.length < 64 → q ≠ str "/encoders" → q ∉ (Spec.init.run cap ops).others →
      (∀ e ∈ (Spec.init.run cap ops).heard, topicName e.1 e.2.1 ≠ q) → lookup g q = .ok none := by
  obtain ⟨g, h, e, I⟩ := exec_inv b0 h2 ops ha
  exact ⟨g, e, fun q => lookup_unheard I q⟩

/-- C105: there is at most one topic for a board. -/
theorem one_topic (b0 : MsgBus.Bus) {cap enCap : Nat} (h2 : enCap < 65536) (ops : List Op) (ha : AllAllowed cap enCap Spec.init ops) :
    ∃ g l, exec b0 cap enCap ops = .ok g ∧ MsgBus.foreachTopic g.fresh g.bus = .ok l ∧ l.Nodup ∧
      ∀ p b, (topicName p b).length < 64 → topicName p b ≠ str "/encoders" → topicName p b ∉ (Spec.init.run cap ops).others →
      (∀ e ∈ (Spec.init.run cap ops).heard, topicName e.1 e.2.1 = topicName p b → e.1 = p ∧ e.2.1 = b) →
      ∀ t ∈ l, ∀ t' ∈ l, g.bus.name t = topicName p b → g.bus.name t' = topicName p b → t = t' := by
  obtain ⟨g, h, e, I⟩ := exec_inv b0 h2 ops ha
  obtain ⟨b, e1, e2, e3⟩ := MsgBus.foreach_all 0 b0 h I.hist.proper (by rw [I.hist.noCbs]; exact Nat.le_refl _) g.fresh I.hist.len
  obtain ⟨b', e1', J⟩ := MsgBus.run_inv 0 b0 h I.hist.proper (by rw [I.hist.noCbs]; exact Nat.le_refl _)
  rw [I.hist.run] at e1 e1'
  simp only [Except.ok.injEq] at e1 e1'
  subst e1
  subst e1'
  refine ⟨g, _, e, e2, e3, ?_⟩
  intro p b hq he ho hc
  have key : ∀ t ∈ (ads h).map Prod.fst, g.bus.name t = topicName p b → find (topicName p b) (g.maps p) = some t := by
    intro t ht hn
    obtain ⟨a, ham, rfl⟩ := List.mem_map.mp ht
    have hn' := take_eq hq ((J.names a ham).symm.trans hn)
    rcases I.origin a ham with h1 | ⟨p', h1⟩ | h1
    · rw [h1] at hn'
      exact absurd hn'.symm he
    · obtain ⟨-, -, -, b', x', h4, h5⟩ := I.known _ _ _ h1
      obtain ⟨e1, -⟩ := hc _ h4 (by rw [← hn']; exact h5)
      simp only at e1
      subst e1
      rw [← hn']
      exact h1
    · rw [hn'] at h1
      exact absurd h1 ho
  intro t ht t' ht' hn hn'
  have a1 := key t ht hn
  rw [key t' ht' hn'] at a1
  exact (Option.some.inj a1).symm

/-- C105: a message from a node that is not known changes nothing. -/
theorem unknown_ignored (b0 : MsgBus.Bus) {cap enCap : Nat} (h2 : enCap < 65536) (ops : List Op) (ha : AllAllowed cap enCap Spec.init ops) (src : BitVec 8)
    (hs : ∀ n, (n, src) ∉ (Spec.init.run cap ops).dev.ids) :
    ∃ g, exec b0 cap enCap ops = .ok g ∧ (∀ m, step g (.can src m) = .ok g) ∧ ∀ f, step g (.motor src f) = .ok g := by
  obtain ⟨g, h, e, I⟩ := exec_inv b0 h2 ops ha
  refine ⟨g, e, ?_, ?_⟩
  · intro m
    have hb := board_ok I src
    rw [board_none hs] at hb
    simp only [step, process, hb]
    rfl
  · intro f
    rcases motor_id I src with ⟨-, -, h3⟩ | ⟨i, n, hb, -⟩ | ⟨j, n, hb, -⟩
    · simp only [step, motorFeedback, h3]
      rfl
    · exact absurd (board_mem hb) (hs n)
    · exact absurd (board_mem hb) (hs n)

/-- C105: the wheel positions read are those of the last message, and zero before the first one. -/
theorem wheels_read (b0 : MsgBus.Bus) {cap enCap : Nat} (h2 : enCap < 65536) (ops : List Op) (ha : AllAllowed cap enCap Spec.init ops)
    (ho : str "/encoders" ∉ (Spec.init.run cap ops).others) (hc : ∀ e ∈ (Spec.init.run cap ops).heard, topicName e.1 e.2.1 ≠ str "/encoders") :
    ∃ g, exec b0 cap enCap ops = .ok g ∧ readEncoders g = .ok (match (Spec.init.run cap ops).wheels with | some (.wheels l r) => (l, r) | _ => (0, 0)) := by
  obtain ⟨g, h, e, I⟩ := exec_inv b0 h2 ops ha
  refine ⟨g, e, ?_⟩
  have hl : lookup g (str "/encoders") = .ok (some (Spec.init.run cap ops).wheels) := by
    rw [lookup_ok I.hist]
    congr 1
    cases hf : (ads h).find? (fun a => decide (a.2.take 64 = str "/encoders")) with
    | none => exact absurd (by decide) (List.find?_eq_none.mp hf _ I.enc)
    | some a =>
      have hmem := List.mem_of_find?_eq_some hf
      have hname := List.find?_some hf
      simp only [decide_eq_true_eq] at hname
      have hn := take_eq (by decide) hname
      rcases I.origin a hmem with h1 | ⟨p', h1⟩ | h1
      · rw [h1]
        simp only [Option.map_some, I.wheels]
      · obtain ⟨-, -, -, b', x', h4, h5⟩ := I.known _ _ _ h1
        exact absurd (h5.trans hn) (hc _ h4)
      · rw [hn] at h1
        exact absurd h1 ho
  unfold readEncoders
  rw [hl]
  simp only [bind_ok, pure_eq]
  cases (Spec.init.run cap ops).wheels with
  | none => rfl
  | some x => cases x <;> rfl

/-- C105: names of distance topics are different for different boards. -/
theorem distance_names {b b' : Name} (h : topicName .range b = topicName .range b') : b = b' := List.append_cancel_left h

theorem replaceAux_fuel (fr rep : Name) : ∀ (n m : Nat) (l : Name), l.length ≤ n → l.length ≤ m → fr ≠ [] → replaceAux fr rep n l = replaceAux fr rep m l := by
  intro n
  induction n with
  | zero => intro m l h _ _; rw [List.length_eq_zero_iff.mp (by omega : l.length = 0)]; cases m <;> rfl
  | succ n ih =>
    intro m l h h' hf
    cases l with
    | nil => cases m <;> rfl
    | cons c l =>
      obtain ⟨m, rfl⟩ : ∃ k, m = k + 1 := ⟨m - 1, by simp only [List.length_cons] at h'; omega⟩
      have : 0 < fr.length := List.length_pos_iff.mpr hf
      simp only [List.length_cons] at h h'
      rw [replaceAux, replaceAux, ih m ((c :: l).drop fr.length) (by simp; omega) (by simp; omega) hf, ih m l (by omega) (by omega) hf]

/-- Every occurrence is replaced, from left to right: the first one, after a text in which none begins, and then those in the rest. -/
theorem replace_first (fr rep a l : Name) (hf : fr ≠ []) (h : ∀ b c, a = b ++ c → c ≠ [] → ¬ fr <+: c ++ fr ++ l) : replaceAll fr rep (a ++ fr ++ l) = a ++ rep ++ replaceAll fr rep l := by
  unfold replaceAll
  have key : ∀ (a : Name) (n : Nat), (a ++ fr ++ l).length ≤ n → (∀ b c, a = b ++ c → c ≠ [] → ¬ fr <+: c ++ fr ++ l) → replaceAux fr rep n (a ++ fr ++ l) = a ++ rep ++ replaceAux fr rep l.length l := by
    intro a
    induction a with
    | nil =>
      intro n hn _
      obtain ⟨c, t, hc⟩ := List.exists_cons_of_ne_nil hf
      obtain ⟨n, rfl⟩ : ∃ k, n = k + 1 := ⟨n - 1, by rw [hc] at hn; simp at hn; omega⟩
      have e : [] ++ fr ++ l = c :: (t ++ l) := by rw [hc]; rfl
      rw [e, replaceAux, ← e, List.nil_append, if_pos (List.isPrefixOf_iff_prefix.mpr (List.prefix_append fr l)), List.drop_left]
      rw [replaceAux_fuel fr rep n l.length l (by rw [hc] at hn; simp at hn; omega) (Nat.le_refl _) hf]
      rfl
    | cons x a ih =>
      intro n hn h
      obtain ⟨n, rfl⟩ : ∃ k, n = k + 1 := ⟨n - 1, by simp at hn; omega⟩
      have hx : fr.isPrefixOf (x :: (a ++ fr ++ l)) = false := by
        cases hp : fr.isPrefixOf (x :: (a ++ fr ++ l)) with
        | false => rfl
        | true => exact absurd (List.isPrefixOf_iff_prefix.mp hp) (h [] (x :: a) rfl (by simp))
      rw [List.cons_append, List.cons_append, replaceAux, hx, if_neg (by simp), ih n (by simp at hn ⊢; omega) fun b c e => h (x :: b) c (by rw [e]; rfl)]
      rfl
  exact key a _ (Nat.le_refl _) h

/-- A text without occurrences is left as it is. -/
theorem replace_none (fr rep l : Name) (h : ¬ fr <:+: l) : replaceAll fr rep l = l := by
  unfold replaceAll
  have key : ∀ (l : Name) (n : Nat), ¬ fr <:+: l → replaceAux fr rep n l = l := by
    intro l
    induction l with
    | nil => intro n _; cases n <;> rfl
    | cons c l ih =>
      intro n h
      cases n with
      | zero => rfl
      | succ n =>
        have hx : fr.isPrefixOf (c :: l) = false := by
          cases hp : fr.isPrefixOf (c :: l) with
          | false => rfl
          | true => exact absurd (List.isPrefixOf_iff_prefix.mp hp).isInfix h
        rw [replaceAux, hx, if_neg (by simp), ih n fun x => h (x.trans (List.suffix_cons c l).isInfix)]
  exact key l _ h

example : topicName .act (str "actuator-front-actuator-1") = str "/actuator/front-/actuator/1" := by decide +kernel

/-- Finding: names of actuator topics are not. -/
theorem actuator_names_clash : topicName .act (str "actuator-x") = topicName .act (str "/actuator/x") := by decide +kernel

/-! ## The robot -/

/-- After the start no more drivers are made. -/
def Later : Op → Prop
  | .dev (.create _) => False
  | .dev (.actuator _ _) => False
  | _ => True

/-- The eight boards -/
def boards : List Name := (["left-wheel", "right-wheel", "actuator-front-left", "actuator-front-center", "actuator-front-right", "actuator-back-left",
  "actuator-back-center", "actuator-back-right"] : List String).map str

/-- The actuator boards and their topics -/
def actuators : List (Name × Name) :=
  ([("actuator-front-left", "/actuator/front-left"), ("actuator-front-center", "/actuator/front-center"), ("actuator-front-right", "/actuator/front-right"),
    ("actuator-back-left", "/actuator/back-left"), ("actuator-back-center", "/actuator/back-center"), ("actuator-back-right", "/actuator/back-right")] :
    List (String × String)).map fun p => (str p.1, str p.2)

/-- Boards that are known or were heard are among `bs`. -/
structure Among (bs : List Name) (σ : Spec) : Prop where
  motors : ∀ n ∈ σ.dev.names, n ∈ bs
  acts : ∀ n ∈ σ.dev.acts, n ∈ bs
  ids : ∀ p ∈ σ.dev.ids, p.1 ∈ bs
  heard : ∀ e ∈ σ.heard, e.2.1 ∈ bs

theorem among_step {bs : List Name} {σ : Spec} (h : Among bs σ) (cap : Nat) (op : Op) (hl : Later op) : Among bs (σ.step cap op) := by
  cases op with
  | dev op =>
    cases op with
    | create n => exact hl.elim
    | actuator n j => exact hl.elim
    | set n m v =>
      refine ⟨?_, h.acts, h.ids, h.heard⟩
      intro k hk
      obtain ⟨q, hq, rfl⟩ := List.mem_map.mp hk
      obtain ⟨q0, hq0, rfl⟩ := List.mem_map.mp hq
      have := h.motors q0.1 (List.mem_map_of_mem hq0)
      by_cases e : q0.1 = n
      · simp only [e, if_true]
        exact e ▸ this
      · simp only [e, if_false]
        exact this
    | disable i =>
      refine ⟨?_, h.acts, h.ids, h.heard⟩
      have : ({ σ.dev with motors := σ.dev.motors.modify i fun p => (p.1, .disabled, p.2.2) } : Motors.Spec).names = σ.dev.names := Motors.map_modify_id _ _ _ _ (fun a => rfl)
      intro k hk
      exact h.motors k (this ▸ hk)
    | announce n id =>
      simp only [Spec.step, Motors.Spec.step]
      split
      · rename_i hc
        refine ⟨h.motors, h.acts, ?_, h.heard⟩
        intro q hq
        rcases List.mem_append.mp hq with hq | hq
        · exact h.ids q hq
        · rw [List.mem_singleton.mp hq]
          rcases hc.2.1 with hh | hh
          · exact h.motors _ hh
          · exact h.acts _ hh
      · exact h
    | timer => exact h
  | can src m =>
    simp only [Spec.step]
    split
    · exact h
    · rename_i b hb
      refine ⟨h.motors, h.acts, h.ids, ?_⟩
      intro e he
      rcases List.mem_cons.mp he with rfl | he
      · exact h.ids _ (board_mem hb)
      · exact h.heard e he
  | wheels l r => exact ⟨h.motors, h.acts, h.ids, h.heard⟩
  | other n => exact ⟨h.motors, h.acts, h.ids, h.heard⟩
  | motor src f =>
    simp only [Spec.step]
    split
    · exact h
    · exact ⟨h.motors, h.acts, h.ids, h.heard⟩
  | take i s => exact ⟨h.motors, h.acts, h.ids, h.heard⟩

theorem among_run {bs : List Name} (cap : Nat) (ops : List Op) : ∀ {σ : Spec}, Among bs σ → (∀ op ∈ ops, Later op) → Among bs (σ.run cap ops) := by
  induction ops with
  | nil => intro σ h _; exact h
  | cons op ops ih => intro σ h hl; exact ih (among_step h cap op (hl op List.mem_cons_self)) (fun o ho => hl o (List.mem_cons_of_mem _ ho))

theorem allowed_append {cap enCap : Nat} (a : List Op) : ∀ {σ : Spec} {b : List Op}, AllAllowed cap enCap σ a → AllAllowed cap enCap (σ.run cap a) b →
    AllAllowed cap enCap σ (a ++ b) := by
  induction a with
  | nil => intro σ b _ h; exact h
  | cons op a ih => intro σ b h1 h2; exact ⟨h1.1, ih h1.2 h2⟩

instance (cap enCap : Nat) (σ : Motors.Spec) (op : Motors.Op) : Decidable (Motors.Allowed cap enCap σ op) := by
  cases op <;> unfold Motors.Allowed <;> infer_instance

/-- The start of the robot is within the limits of main.h:13-14. -/
theorem start_allowed : AllAllowed 20 21 Spec.init startOps := by
  unfold startOps
  simp only [AllAllowed, Allowed]
  decide +kernel

theorem start_among : Among boards (Spec.init.run 20 startOps) := by
  constructor <;> decide +kernel

/-- C105: on the robot, for every sequence of operations after the start: the topic of each actuator board, which is also where the page of the display looks, has the last feedback
of that board. (`others` are the topics of the rest of the program.) -/
theorem robot_actuators (b0 : MsgBus.Bus) (ops : List Op) (hl : ∀ op ∈ ops, Later op) (ha : AllAllowed 20 21 (Spec.init.run 20 startOps) ops) :
    ∃ g, exec b0 20 21 (startOps ++ ops) = .ok g ∧ ∀ x ∈ actuators, x.2 ∉ (Spec.init.run 20 (startOps ++ ops)).others →
      pageTopic x.1 = x.2 ∧ lookup g x.2 = .ok (((Spec.init.run 20 (startOps ++ ops)).last .act x.1).map some) := by
  obtain ⟨g, h, e, I⟩ := exec_inv b0 (by omega) _ (allowed_append _ start_allowed ha)
  refine ⟨g, e, ?_⟩
  intro x hx ho
  have hA : Among boards (Spec.init.run 20 (startOps ++ ops)) := by
    unfold Spec.run
    rw [List.foldl_append]
    exact among_run 20 ops start_among hl
  have hname : ∀ x ∈ actuators, topicName .act x.1 = x.2 ∧ pageTopic x.1 = x.2 ∧ x.2.length < 64 ∧ x.2 ≠ str "/encoders" := by decide +kernel
  have hclash : ∀ x ∈ actuators, ∀ b ∈ boards, topicName .range b ≠ x.2 ∧ (topicName .act b = x.2 → b = x.1) := by decide +kernel
  obtain ⟨n1, n2, n3, n4⟩ := hname x hx
  refine ⟨n2, ?_⟩
  rw [← n1]
  apply lookup_known I
  · rw [n1]; exact n3
  · rw [n1]; exact n4
  · rw [n1]; exact ho
  · intro e' he' hne
    rw [n1] at hne
    obtain ⟨c1, c2⟩ := hclash x hx _ (hA.heard e' he')
    obtain ⟨p, b, y⟩ := e'
    cases p with
    | range => exact absurd hne c1
    | act => exact ⟨rfl, c2 hne⟩

/-- Finding: the boards of the distance sensors are not among the boards that the robot knows, so their messages are never forwarded: in every state the topics that
`strategy_align_front_sensors` waits for (base.cpp:147-148) do not exist. -/
theorem robot_no_distance (b0 : MsgBus.Bus) (ops : List Op) (hl : ∀ op ∈ ops, Later op) (ha : AllAllowed 20 21 (Spec.init.run 20 startOps) ops) (q : Name)
    (hq : q = str "/distance/front_left" ∨ q = str "/distance/front_right") (ho : q ∉ (Spec.init.run 20 (startOps ++ ops)).others) :
    ∃ g, exec b0 20 21 (startOps ++ ops) = .ok g ∧ lookup g q = .ok none := by
  obtain ⟨g, h, e, I⟩ := exec_inv b0 (by omega) _ (allowed_append _ start_allowed ha)
  refine ⟨g, e, ?_⟩
  have hA : Among boards (Spec.init.run 20 (startOps ++ ops)) := by
    unfold Spec.run
    rw [List.foldl_append]
    exact among_run 20 ops start_among hl
  have hclash : ∀ b ∈ boards, ∀ p ∈ [Proxy.range, .act], topicName p b ≠ str "/distance/front_left" ∧ topicName p b ≠ str "/distance/front_right" := by decide +kernel
  apply lookup_unheard I q
  · rcases hq with rfl | rfl <;> decide +kernel
  · rcases hq with rfl | rfl <;> decide +kernel
  · exact ho
  · intro e' he' hne
    have hp : e'.1 ∈ [Proxy.range, .act] := by cases e'.1 <;> simp
    obtain ⟨c1, c2⟩ := hclash _ (hA.heard e' he') _ hp
    rcases hq with rfl | rfl
    · exact c1 hne
    · exact c2 hne

/-- A run with a discovery, feedback, a message of an unknown board, wheel positions -/
def exampleOps : List Op :=
  [.dev (.announce (str "actuator-back-left") 42), .can 42 (.feedback 100000 99000 0 0 true), .can 43 (.feedback 1 2 0 0 false), .can 42 (.feedback 100001 99001 0 0 false),
    .other (str "/position"), .wheels 5 7, .dev (.announce (str "left-wheel") 11), .motor 11 (.motorPos 3 4), .can 11 (.distance 200 0)]

instance (cap enCap : Nat) (σ : Spec) (op : Op) : Decidable (Allowed cap enCap σ op) :=
  match op with
  | .dev op => inferInstanceAs (Decidable (Motors.Allowed cap enCap σ.dev op))
  | .motor src _ =>
    match hb : σ.board src with
    | none => .isTrue (by intro b h; rw [hb] at h; cases h)
    | some b => decidable_of_iff (b ∉ σ.dev.acts) ⟨fun h b' e => by rw [hb] at e; cases e; exact h, fun h => h b hb⟩
  | .can _ _ => .isTrue trivial
  | .wheels _ _ => .isTrue trivial
  | .other _ => .isTrue trivial
  | .take _ _ => .isTrue trivial

instance decAllAllowed (cap enCap : Nat) : ∀ (ops : List Op) (σ : Spec), Decidable (AllAllowed cap enCap σ ops)
  | [], _ => .isTrue trivial
  | op :: ops, σ => by
    unfold AllAllowed
    exact @instDecidableAnd _ _ _ (decAllAllowed cap enCap ops _)

example : (∀ op ∈ exampleOps, Later op) ∧ AllAllowed 20 21 (Spec.init.run 20 startOps) exampleOps := by
  constructor
  · intro op hop
    simp only [exampleOps, List.mem_cons, List.not_mem_nil, or_false] at hop
    rcases hop with rfl | rfl | rfl | rfl | rfl | rfl | rfl | rfl | rfl <;> trivial
  · decide +kernel

example : (Spec.init.run 20 (startOps ++ exampleOps)).last .act (str "actuator-back-left") = some (.feedback 100001 99001 false) ∧
    (Spec.init.run 20 (startOps ++ exampleOps)).wheels = some (.wheels 5 7) ∧ (Spec.init.run 20 (startOps ++ exampleOps)).val 0 5 = 3 ∧
    (Spec.init.run 20 (startOps ++ exampleOps)).new 0 3 = true ∧ (Spec.init.run 20 (startOps ++ exampleOps)).new 1 3 = false ∧
    (Spec.init.run 20 (startOps ++ exampleOps)).last .range (str "left-wheel") = some (.range (1 / 5)) := by decide +kernel

/-- Finding: a measurement that failed (status other than `STATUS_OK`, which is 0) is forwarded as a distance like any other. -/
theorem failed_measurement (mm : BitVec 8) (status : BitVec 4) : (Can.distance mm status).translate = (Can.distance mm 0).translate := rfl

/-- Finding: `rs_encoder_get_left_ext` and `rs_encoder_get_right_ext` read the topic separately; with a message in between the base gets a pair that was never sent. -/
theorem wheels_torn (b0 : MsgBus.Bus) : ∃ g g' l l', exec b0 20 21 [.wheels 1 1] = .ok g ∧ step g (.wheels 2 2) = .ok g' ∧ readEncoders g = .ok (1, l) ∧
    readEncoders g' = .ok (l', 2) := by
  refine ⟨_, _, 1, 2, rfl, rfl, ?_, ?_⟩ <;> rfl

/-! ## Motor feedback (C106) -/

/-- C106: for every sequence of operations within the limits, from start: each stream of each motor driver has the value of the last feedback message from the node discovered under
the motor's name that had a value for this stream, it is marked as new if and only if no one took it since, and the count of index passages is that of the last message. Missing: feedback from the boards of actuators, for which it is false (`actuator_feedback_confused`). -/
theorem motor_streams_partial (b0 : MsgBus.Bus) {cap enCap : Nat} (h2 : enCap < 65536) (ops : List Op) (ha : AllAllowed cap enCap Spec.init ops) :
    ∃ g, exec b0 cap enCap ops = .ok g ∧ g.mgr.drivers.map (fun d => d.id) = (Spec.init.run cap ops).dev.names ∧
      (∀ i d, g.mgr.drivers[i]? = some d → ∀ s, s < 10 → d.values s = (Spec.init.run cap ops).val i s ∧ d.status.getLsbD s = (Spec.init.run cap ops).new i s) ∧
      g.count = (Spec.init.run cap ops).count := by
  obtain ⟨g, h, e, I⟩ := exec_inv b0 h2 ops ha
  obtain ⟨β, R⟩ := I.dev
  exact ⟨g, e, R.driver_names, I.vals, I.count⟩

/-- C106: feedback of one motor does not change the others, nor any setpoint or mode. -/
theorem motor_only (σ : Spec) (cap : Nat) (src : BitVec 8) (f : Feedback) (j : Nat) (hj : σ.motor src ≠ some j) :
    (σ.step cap (.motor src f)).val j = σ.val j ∧ (σ.step cap (.motor src f)).new j = σ.new j ∧ (σ.step cap (.motor src f)).count j = σ.count j ∧
      (σ.step cap (.motor src f)).dev = σ.dev := by
  simp only [Spec.step]
  split
  · exact ⟨rfl, rfl, rfl, rfl⟩
  · rename_i i hi
    have : ¬ j = i := by rintro rfl; exact hj hi
    simp [this]

/-- Finding: motor feedback with the id of an actuator board (wrong firmware on a board, or two boards with one id) is written over the actuator's driver: in every state, for every
actuator that was discovered. `Allowed` excludes this. -/
theorem actuator_feedback_confused (b0 : MsgBus.Bus) {cap enCap : Nat} (h2 : enCap < 65536) (ops : List Op) (ha : AllAllowed cap enCap Spec.init ops) (src : BitVec 8)
    (f : Feedback) (b : Name) (hb : (Spec.init.run cap ops).board src = some b) (hact : b ∈ (Spec.init.run cap ops).dev.acts) :
    ∃ g, exec b0 cap enCap ops = .ok g ∧ step g (.motor src f) = .error (.motors .confusion) := by
  obtain ⟨g, h, e, I⟩ := exec_inv b0 h2 ops ha
  refine ⟨g, e, ?_⟩
  rcases motor_id I src with ⟨-, hb', -⟩ | ⟨i, n, hb', -, hn, -⟩ | ⟨j, n, -, -, -, -, h3⟩
  · rw [hb] at hb'; cases hb'
  · rw [hb] at hb'
    cases hb'
    exact absurd hact hn
  · simp only [step, motorFeedback, h3, Motors.lift_ok, liftM_ok, bind_ok]
    rw [if_neg (by omega)]

example : (Spec.init.run 20 (startOps ++ exampleOps)).board 42 = some (str "actuator-back-left") ∧
    str "actuator-back-left" ∈ (Spec.init.run 20 (startOps ++ exampleOps)).dev.acts := by decide +kernel

end Verif.Gateway
