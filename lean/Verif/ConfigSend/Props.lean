import Verif.ConfigSend.Model

/-!
# Sending the configuration to the master — properties (C146)
-/

namespace Verif.ConfigSend

/-- The value at the end of a path -/
def get {K : Type} [DecidableEq K] : List K → Val K → Option String
  | [], .leaf x => some x
  | k :: p, .dict es => match es.find k with
    | some v => get p v
    | none => none
  | _, _ => none

mutual
/-- No two keys of a dictionary are the same text, at any depth. -/
def Val.Clear {K : Type} (str : K → String) : Val K → Prop
  | .leaf _ => True
  | .dict es => es.Clear str
def Ents.Clear {K : Type} (str : K → String) : Ents K → Prop
  | .nil => True
  | .cons k v es => (∀ x ∈ es.items, str x.1 ≠ str k) ∧ v.Clear str ∧ es.Clear str
end

/-- The last entry with the text as its key -/
def Ents.lastOf {K : Type} (str : K → String) : Ents K → String → Option (Val K)
  | .nil, _ => none
  | .cons k v es, l => match es.lastOf str l with
    | some u => some u
    | none => if l = str k then some v else none

theorem find_put {K : Type} [DecidableEq K] (es : Ents K) (k l : K) (v : Val K) : (es.put k v).find l = if l = k then some v else es.find l := by
  match es with
  | .nil => simp only [Ents.put, Ents.find]
  | .cons a u es =>
    have ih := find_put es k l v
    unfold Ents.put
    by_cases h : k = a
    · subst h
      rw [if_pos rfl]
      simp only [Ents.find]
      split <;> rfl
    · rw [if_neg h]
      simp only [Ents.find, ih]
      by_cases h1 : l = a
      · rw [if_pos h1, if_pos h1, if_neg (fun e => h (e.symm.trans h1))]
      · rw [if_neg h1, if_neg h1]

theorem convert_find {K : Type} (str : K → String) (es : Ents K) (acc : Ents String) (l : String) :
    (convert str es acc).find l = match es.lastOf str l with | some v => some (keysToStr str v) | none => acc.find l := by
  match es with
  | .nil => simp only [convert, Ents.lastOf]
  | .cons k v es =>
    simp only [convert, Ents.lastOf, convert_find str es, find_put]
    cases es.lastOf str l with
    | some u => rfl
    | none =>
      by_cases h : l = str k
      · simp only [if_pos h]
      · simp only [if_neg h]

theorem lastOf_mem {K : Type} {str : K → String} {es : Ents K} {l : String} {v : Val K} (h : es.lastOf str l = some v) : ∃ k, (k, v) ∈ es.items ∧ str k = l := by
  match es with
  | .nil => cases h
  | .cons k u es =>
    simp only [Ents.lastOf] at h
    cases e : es.lastOf str l with
    | some w =>
      rw [e] at h
      cases h
      obtain ⟨j, a, b⟩ := lastOf_mem e
      exact ⟨j, List.mem_cons_of_mem _ a, b⟩
    | none =>
      rw [e] at h
      simp only at h
      split at h
      · cases h
        exact ⟨k, List.mem_cons_self, by rename_i q; exact q.symm⟩
      · cases h

theorem lastOf_find {K : Type} [DecidableEq K] {str : K → String} {es : Ents K} (h : es.Clear str) (k : K) (hk : ∀ x ∈ es.items, str x.1 = str k → x.1 = k) : es.lastOf str (str k) = es.find k := by
  match es with
  | .nil => rfl
  | .cons a u es =>
    have h' : (∀ x ∈ es.items, str x.1 ≠ str a) ∧ u.Clear str ∧ es.Clear str := by simpa only [Ents.Clear] using h
    have ih := lastOf_find h'.2.2 k fun x hx => hk x (List.mem_cons_of_mem _ hx)
    simp only [Ents.lastOf, Ents.find]
    by_cases e : k = a
    · subst e
      rw [if_pos rfl, if_pos rfl]
      cases q : es.lastOf str (str k) with
      | none => rfl
      | some w =>
        obtain ⟨j, m1, m2⟩ := lastOf_mem q
        exact absurd m2 (h'.1 _ m1)
    · rw [if_neg e, ih, if_neg (fun q => e (hk (a, u) List.mem_cons_self q.symm).symm)]
      cases es.find k <;> rfl

theorem find_mem {K : Type} [DecidableEq K] {es : Ents K} {k : K} {v : Val K} (h : es.find k = some v) : (k, v) ∈ es.items := by
  match es with
  | .nil => cases h
  | .cons a u es =>
    simp only [Ents.find] at h
    split at h
    · rename_i e
      cases h
      rw [e]
      exact List.mem_cons_self
    · exact List.mem_cons_of_mem _ (find_mem h)

theorem clear_mem {K : Type} {str : K → String} {es : Ents K} (h : es.Clear str) {x : K × Val K} (hx : x ∈ es.items) : x.2.Clear str := by
  match es with
  | .nil => cases hx
  | .cons a u es =>
    have h' : (∀ x ∈ es.items, str x.1 ≠ str a) ∧ u.Clear str ∧ es.Clear str := by simpa only [Ents.Clear] using h
    rcases List.mem_cons.mp hx with rfl | hx
    · exact h'.2.1
    · exact clear_mem h'.2.2 hx

theorem clear_inj {K : Type} {str : K → String} {es : Ents K} (h : es.Clear str) {x y : K × Val K} (hx : x ∈ es.items) (hy : y ∈ es.items) (e : str x.1 = str y.1) : x = y := by
  match es with
  | .nil => cases hx
  | .cons a u es =>
    have h' : (∀ x ∈ es.items, str x.1 ≠ str a) ∧ u.Clear str ∧ es.Clear str := by simpa only [Ents.Clear] using h
    rcases List.mem_cons.mp hx with rfl | hx <;> rcases List.mem_cons.mp hy with rfl | hy
    · rfl
    · exact absurd e.symm (h'.1 _ hy)
    · exact absurd e (h'.1 _ hx)
    · exact clear_inj h'.2.2 hx hy e

/-! ## The keys -/

/-- **Each value keeps its place** if no two keys of a dictionary are the same text. -/
theorem keys_kept {K : Type} [DecidableEq K] {str : K → String} (p : List K) (v : Val K) (h : v.Clear str) {x : String} (hx : get p v = some x) : get (p.map str) (keysToStr str v) = some x := by
  induction p generalizing v with
  | nil =>
    cases v with
    | leaf y => simpa only [keysToStr, get, List.map_nil] using hx
    | dict es => simp only [get] at hx; cases hx
  | cons k p ih =>
    cases v with
    | leaf y => simp only [get] at hx; cases hx
    | dict es =>
      have h' : es.Clear str := by simpa only [Val.Clear] using h
      simp only [get] at hx
      cases e : es.find k with
      | none => rw [e] at hx; cases hx
      | some u =>
        rw [e] at hx
        have m := find_mem e
        have l := lastOf_find h' k fun y hy q => congrArg Prod.fst (clear_inj h' hy m q)
        simp only [keysToStr, List.map_cons, get, convert_find, l, e]
        exact ih u (clear_mem h' m) hx

/-- A path to a value, by any of the entries with that key -/
inductive Has {K : Type} : Val K → List K → String → Prop
  | leaf (x : String) : Has (.leaf x) [] x
  | dict {es : Ents K} {k : K} {v : Val K} {p : List K} {x : String} (h : (k, v) ∈ es.items) (t : Has v p x) : Has (.dict es) (k :: p) x

/-- **Nothing is made up:** each value in the result was in the file, under keys with that text. -/
theorem keys_from {K : Type} {str : K → String} (q : List String) (v : Val K) {x : String} (hx : get q (keysToStr str v) = some x) : ∃ p, p.map str = q ∧ Has v p x := by
  induction q generalizing v with
  | nil =>
    cases v with
    | leaf y =>
      simp only [keysToStr, get] at hx
      cases hx
      exact ⟨[], rfl, .leaf _⟩
    | dict es => simp only [keysToStr, get] at hx; cases hx
  | cons l q ih =>
    cases v with
    | leaf y => simp only [keysToStr, get] at hx; cases hx
    | dict es =>
      simp only [keysToStr, get, convert_find] at hx
      cases e : es.lastOf str l with
      | none => rw [e] at hx; simp only [Ents.find] at hx; cases hx
      | some u =>
        rw [e] at hx
        obtain ⟨k, m, rfl⟩ := lastOf_mem e
        obtain ⟨p, rfl, hp⟩ := ih u hx
        exact ⟨k :: p, rfl, .dict m hp⟩

/-! ## The parts -/

/-- No key is there twice. -/
def Ents.Nodup {K : Type} (es : Ents K) : Prop := (es.items.map Prod.fst).Nodup

theorem put_keys {K : Type} [DecidableEq K] (es : Ents K) (k : K) (v : Val K) : ∀ l, l ∈ (es.put k v).items.map Prod.fst ↔ l = k ∨ l ∈ es.items.map Prod.fst := by
  match es with
  | .nil => intro l; simp [Ents.put, Ents.items]
  | .cons a u es =>
    intro l
    have ih := put_keys es k v l
    unfold Ents.put
    split
    · rename_i e
      subst e
      simp [Ents.items]
    · simp only [Ents.items, List.map_cons, List.mem_cons, ih]
      constructor
      · rintro (h | h | h)
        · exact .inr (.inl h)
        · exact .inl h
        · exact .inr (.inr h)
      · rintro (h | h | h)
        · exact .inr (.inl h)
        · exact .inl h
        · exact .inr (.inr h)

theorem put_nodup {K : Type} [DecidableEq K] (es : Ents K) (k : K) (v : Val K) (h : es.Nodup) : (es.put k v).Nodup := by
  match es with
  | .nil => simp [Ents.put, Ents.Nodup, Ents.items]
  | .cons a u es =>
    simp only [Ents.Nodup, Ents.items, List.map_cons, List.nodup_cons] at h
    have ih := put_nodup es k v h.2
    unfold Ents.put
    split
    · simpa only [Ents.Nodup, Ents.items, List.map_cons, List.nodup_cons] using h
    · rename_i e
      simp only [Ents.Nodup, Ents.items, List.map_cons, List.nodup_cons, put_keys]
      exact ⟨fun q => q.elim (fun q => e q.symm) h.1, ih⟩

theorem convert_nodup {K : Type} (str : K → String) (es : Ents K) (acc : Ents String) (h : acc.Nodup) : (convert str es acc).Nodup := by
  match es with
  | .nil => simpa only [convert] using h
  | .cons k v es =>
    simp only [convert]
    exact convert_nodup str es _ (put_nodup acc _ _ h)

theorem find_iff {K : Type} [DecidableEq K] {es : Ents K} (h : es.Nodup) {k : K} {v : Val K} : es.find k = some v ↔ (k, v) ∈ es.items := by
  refine ⟨find_mem, fun m => ?_⟩
  match es with
  | .nil => cases m
  | .cons a u es =>
    simp only [Ents.Nodup, Ents.items, List.map_cons, List.nodup_cons] at h
    simp only [Ents.find]
    rcases List.mem_cons.mp m with e | m
    · cases e
      exact if_pos rfl
    · rw [if_neg (fun e : k = a => h.1 (e ▸ List.mem_map_of_mem (f := Prod.fst) m))]
      exact (find_iff h.2).mpr m

theorem find_del {K : Type} [DecidableEq K] {es : Ents K} (h : es.Nodup) (k l : K) : (es.del k).find l = if l = k then none else es.find l := by
  match es with
  | .nil => simp [Ents.del, Ents.find]
  | .cons a u es =>
    simp only [Ents.Nodup, Ents.items, List.map_cons, List.nodup_cons] at h
    have ih := find_del h.2 k l
    unfold Ents.del
    split
    · rename_i e
      subst e
      simp only [Ents.find]
      by_cases q : l = k
      · rw [if_pos q]
        cases f : es.find l with
        | none => rfl
        | some v => exact absurd (q ▸ List.mem_map_of_mem (f := Prod.fst) (find_mem f)) h.1
      · rw [if_neg q, if_neg q]
    · rename_i e
      simp only [Ents.find, ih]
      by_cases q : l = a
      · rw [if_pos q, if_pos q, if_neg (fun r => e (r.symm.trans q))]
      · rw [if_neg q, if_neg q]

/-- **The parts are the whole:** a value is at a path in one of the parts exactly if it is in the configuration. -/
theorem split_same {es : Ents String} {cs : List (Ents String)} (h : split es = some cs) (hn : es.Nodup) (ha : ∀ names, es.find "actuator" = some (.dict names) → names.Nodup) (p : List String) (x : String) :
    (∃ c ∈ cs, get p (.dict c) = some x) ↔ get p (.dict es) = some x := by
  unfold split at h
  cases e : es.find "actuator" with
  | none =>
    rw [e] at h
    cases h
    simp
  | some v =>
    rw [e] at h
    cases v with
    | leaf y => cases h
    | dict names =>
      cases h
      have hnn := ha names e
      cases p with
      | nil => simp [get]
      | cons k p =>
        simp only [List.mem_append, List.mem_map, List.mem_singleton, get]
        constructor
        · rintro ⟨c, ⟨y, hy, rfl⟩ | rfl, hc⟩
          · simp only [Ents.find] at hc
            by_cases q : k = "actuator"
            · rw [if_pos q] at hc
              rw [q, e]
              cases p with
              | nil => simp only [get] at hc; cases hc
              | cons n p =>
                simp only [get, Ents.find] at hc ⊢
                by_cases r : n = y.1
                · rw [if_pos r] at hc
                  rw [r, (find_iff hnn).mpr (show (y.1, y.2) ∈ names.items from hy)]
                  exact hc
                · rw [if_neg r] at hc
                  cases hc
            · rw [if_neg q] at hc
              cases hc
          · rw [find_del hn] at hc
            by_cases q : k = "actuator"
            · rw [if_pos q] at hc
              cases hc
            · rw [if_neg q] at hc
              exact hc
        · intro hx
          by_cases q : k = "actuator"
          · subst q
            rw [e] at hx
            cases p with
            | nil => simp only [get] at hx; cases hx
            | cons n p =>
              simp only [get] at hx
              cases f : names.find n with
              | none => rw [f] at hx; cases hx
              | some u =>
                rw [f] at hx
                refine ⟨_, .inl ⟨(n, u), find_mem f, rfl⟩, ?_⟩
                simp only [get, Ents.find, if_true]
                exact hx
          · refine ⟨_, .inr rfl, ?_⟩
            rw [find_del hn, if_neg q]
            exact hx

/-! ## What is sent -/

/-- **All of the file is sent, and nothing else:** a value of the file is in one of the updates under its keys as texts, and each value in an update was in the file; each actuator in an update has been created before. (If no two keys of a dictionary are the same text.) -/
theorem send_all {K : Type} [DecidableEq K] {str : K → String} {v : Val K} (hv : v.Clear str) {calls : List Call} (h : send str v = some calls) :
    (∀ p x, get p v = some x → ∃ c, Call.update c ∈ calls ∧ get (p.map str) (.dict c) = some x) ∧
    (∀ q x c, Call.update c ∈ calls → get q (.dict c) = some x → ∃ p, p.map str = q ∧ Has v p x) ∧
    ∃ (names : List String) (cs : List (Ents String)), calls = names.map Call.create ++ cs.map Call.update ∧ ∀ c ∈ cs, ∀ n p x, get ("actuator" :: n :: p) (.dict c) = some x → n ∈ names := by
  cases v with
  | leaf y => simp only [send, keysToStr] at h; cases h
  | dict es =>
    have hnil : (Ents.nil : Ents String).Nodup := List.nodup_nil
    have hn := convert_nodup str es .nil hnil
    have hk : keysToStr str (.dict es) = .dict (convert str es .nil) := by simp only [keysToStr]
    have ha : ∀ names, (convert str es .nil).find "actuator" = some (.dict names) → names.Nodup := by
      intro names hf
      rw [convert_find] at hf
      cases l : es.lastOf str "actuator" with
      | none => rw [l] at hf; cases hf
      | some u =>
        rw [l] at hf
        cases u with
        | leaf y => simp only [keysToStr] at hf; cases hf
        | dict as =>
          simp only [keysToStr] at hf
          cases hf
          exact convert_nodup str as .nil hnil
    -- the calls
    obtain ⟨names, cs, e1, e2, e3⟩ : ∃ (names : List String) (cs : List (Ents String)), calls = names.map Call.create ++ cs.map Call.update ∧ split (convert str es .nil) = some cs ∧
        ∀ as, (convert str es .nil).find "actuator" = some (.dict as) → names = as.items.map Prod.fst := by
      simp only [send, hk] at h
      cases f : (convert str es .nil).find "actuator" with
      | none =>
        rw [f] at h
        obtain ⟨cs, a, rfl⟩ := Option.map_eq_some_iff.mp h
        exact ⟨[], cs, rfl, a, fun as q => nomatch q⟩
      | some u =>
        rw [f] at h
        cases u with
        | leaf y => cases h
        | dict as =>
          obtain ⟨cs, a, rfl⟩ := Option.map_eq_some_iff.mp h
          refine ⟨as.items.map Prod.fst, cs, by rw [List.map_map]; rfl, a, fun bs q => ?_⟩
          cases q
          rfl
    have mem : ∀ c, Call.update c ∈ calls ↔ c ∈ cs := by
      intro c
      rw [e1]
      simp
    have same := split_same e2 hn ha
    refine ⟨?_, ?_, names, cs, e1, ?_⟩
    · intro p x hx
      have := keys_kept p _ hv hx
      rw [hk] at this
      obtain ⟨c, c1, c2⟩ := (same _ x).mpr this
      exact ⟨c, (mem c).mpr c1, c2⟩
    · intro q x c hc hx
      refine keys_from q _ ?_
      rw [hk]
      exact (same q x).mp ⟨c, (mem c).mp hc, hx⟩
    · intro c hc n p x hx
      have := (same _ x).mp ⟨c, hc, hx⟩
      simp only [get] at this
      cases f : (convert str es .nil).find "actuator" with
      | none => rw [f] at this; cases this
      | some u =>
        rw [f] at this
        cases u with
        | leaf y => simp only [get] at this; cases this
        | dict as =>
          simp only [get] at this
          rw [e3 as f]
          cases g : as.find n with
          | none => rw [g] at this; cases this
          | some w => exact List.mem_map_of_mem (f := Prod.fst) (find_mem g)

/-! ## An example -/

/-- A key: a number or a text -/
inductive Key where
  | num (n : Nat) | text (s : String)
deriving DecidableEq

/-- `str` for these keys -/
def Key.str : Key → String
  | .num n => toString n
  | .text s => s

/-- Two actuators, the second with a number as name, and another part -/
def sample : Val Key :=
  .dict (.cons (.text "actuator") (.dict (.cons (.text "arm") (.dict (.cons (.text "kp") (.leaf "3") .nil)) (.cons (.num 2) (.dict (.cons (.text "kp") (.leaf "4") .nil)) .nil)))
    (.cons (.text "master") (.leaf "on") .nil))

example : sample.Clear Key.str := by
  simp [sample, Val.Clear, Ents.Clear, Ents.items, Key.str]
  decide

example : (send Key.str sample).map (fun cs => cs.map fun
    | .create n => n
    | .update c => ((get ["actuator", "arm", "kp"] (.dict c)).getD "-") ++ ((get ["actuator", "2", "kp"] (.dict c)).getD "-") ++ ((get ["master"] (.dict c)).getD "-")) =
    some ["arm", "2", "3--", "-4-", "--on"] := by decide +kernel

/-- **Without that condition** a value is lost: of the keys `1` and `"1"` only the second one is sent. -/
theorem key_lost : get [.num 1] (.dict (.cons (.num 1) (.leaf "a") (.cons (.text "1") (.leaf "b") .nil)) : Val Key) = some "a" ∧
    (send Key.str (.dict (.cons (.num 1) (.leaf "a") (.cons (.text "1") (.leaf "b") .nil)))).map (fun cs => cs.map fun
      | .create n => some n
      | .update c => get ["1"] (.dict c)) = some [some "b"] := by decide +kernel

/-- **A file without actuators under that key** (`actuator:` and nothing below) is not sent at all. -/
theorem empty_actuators : send Key.str (.dict (.cons (.text "actuator") (.leaf "None") (.cons (.text "master") (.leaf "on") .nil))) = none := rfl

end Verif.ConfigSend
