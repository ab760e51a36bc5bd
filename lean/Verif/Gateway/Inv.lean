import Verif.Gateway.Lemmas

/-!
# Gateway: the invariant
-/

namespace Verif.Gateway

open BusEnum (Name)
open HeapList (upd)
open MsgBus (ads cbs Proper)

/-- The message bus holds the topics of a history `h` without callbacks, all numbered below `fresh`. -/
structure Hist (b0 : MsgBus.Bus) (bus : MsgBus.Bus) (fresh : Nat) (h : List MsgBus.Op) : Prop where
  run : MsgBus.run 0 b0 h = .ok bus
  proper : Proper h
  noCbs : cbs h = []
  len : (ads h).length ≤ fresh
  lt : ∀ a ∈ ads h, a.1 < fresh

theorem newTopic_ok {b0 : MsgBus.Bus} {g : Gw} {h : List MsgBus.Op} (H : Hist b0 g.bus g.fresh h) (n : Name) :
    ∃ b, newTopic g n = .ok { g with bus := b, fresh := g.fresh + 1, data := upd g.data g.fresh none } ∧
      Hist b0 b (g.fresh + 1) (.advertise g.fresh n :: .initTopic g.fresh :: h) := by
  have hnot : g.fresh ∉ (ads h).map Prod.fst := by
    intro hm
    obtain ⟨a, ha, e⟩ := List.mem_map.mp hm
    have := H.lt a ha
    omega
  have hp : Proper (.advertise g.fresh n :: .initTopic g.fresh :: h) := ⟨by simp, hnot, hnot, H.proper⟩
  have hc : cbs (.advertise g.fresh n :: .initTopic g.fresh :: h) = [] := H.noCbs
  obtain ⟨b, e, -⟩ := MsgBus.run_inv 0 b0 _ hp (by rw [hc]; exact Nat.le_refl _)
  refine ⟨b, ?_, e, hp, hc, ?_, ?_⟩
  · have e' := e
    unfold MsgBus.run MsgBus.run at e'
    rw [H.run] at e'
    have e2 : MsgBus.advertise 0 (MsgBus.topicInit g.bus g.fresh) g.fresh n = .ok b := e'
    unfold newTopic
    rw [e2]
    rfl
  · have := H.len
    simp only [ads, List.length_cons]
    omega
  · intro a ha
    simp only [ads, List.mem_cons] at ha
    rcases ha with rfl | ha
    · exact Nat.lt_succ_self _
    · have := H.lt a ha
      omega

theorem lookup_ok {b0 : MsgBus.Bus} {g : Gw} {h : List MsgBus.Op} (H : Hist b0 g.bus g.fresh h) (q : Name) :
    lookup g q = .ok (((ads h).find? fun a => a.2.take 64 = q).map fun a => g.data a.1) := by
  obtain ⟨b, e1, e2⟩ := MsgBus.find_latest 0 b0 h H.proper (by rw [H.noCbs]; exact Nat.le_refl _) g.fresh H.len q
  rw [H.run] at e1
  simp only [Except.ok.injEq] at e1
  subst e1
  unfold lookup
  rw [e2]
  simp only [liftB_ok, bind_ok, pure_eq]
  show _ = Except.ok (Option.map _ ((ads h).find? fun p => p.2.take MsgBus.nameMax = q))
  cases (ads h).find? fun p => p.2.take MsgBus.nameMax = q <;> rfl

/-- The last message for a topic -/
def Spec.lastT (σ : Spec) (p : Proxy) (n : Name) : Option Payload := (σ.heard.find? fun e => e.1 = p ∧ topicName p e.2.1 = n).map (·.2.2)

structure Inv (b0 : MsgBus.Bus) (g : Gw) (σ : Spec) (h : List MsgBus.Op) : Prop where
  dev : ∃ β, Motors.Rel g.mgr σ.dev β
  ids : (σ.dev.ids.map Prod.snd).Nodup
  hist : Hist b0 g.bus g.fresh h
  enc : (0, str "/encoders") ∈ ads h
  wheels : g.data 0 = σ.wheels
  known : ∀ p n t, find n (g.maps p) = some t → (t, n) ∈ ads h ∧ t ≠ 0 ∧ g.data t = σ.lastT p n ∧ ∃ b x, (p, b, x) ∈ σ.heard ∧ topicName p b = n
  unknown : ∀ p n, find n (g.maps p) = none → ∀ e ∈ σ.heard, e.1 = p → topicName p e.2.1 ≠ n
  sep : ∀ p p' n n' t, find n (g.maps p) = some t → find n' (g.maps p') = some t → p = p' ∧ n = n'
  origin : ∀ a ∈ ads h, a = (0, str "/encoders") ∨ (∃ p, find a.2 (g.maps p) = some a.1) ∨ a.2 ∈ σ.others
  vals : ∀ i d, g.mgr.drivers[i]? = some d → ∀ s, s < 10 → d.values s = σ.val i s ∧ d.status.getLsbD s = σ.new i s
  none : ∀ i, g.mgr.drivers.length ≤ i → ∀ s, σ.val i s = 0 ∧ σ.new i s = false
  count : g.count = σ.count

theorem init_inv (b0 : MsgBus.Bus) (cap enCap : Nat) (h2 : enCap < 65536) :
    ∃ g h, init b0 cap enCap = .ok g ∧ g.mgr.cap = cap ∧ g.mgr.en.cap = enCap ∧ Inv b0 g Spec.init h := by
  have H0 : Hist b0 (MsgBus.busInit b0) 0 [] := ⟨rfl, trivial, rfl, Nat.le_refl _, by intro a ha; cases ha⟩
  obtain ⟨b, e, H⟩ := newTopic_ok (g := ⟨Motors.init cap enCap, MsgBus.busInit b0, 0, fun _ => [], fun _ => Option.none, fun _ => 0⟩) H0 (str "/encoders")
  refine ⟨_, _, e, rfl, rfl, ⟨_, Motors.init_rel h2⟩, by simp [Spec.init], H, by simp [ads], rfl, ?_, ?_, ?_, ?_, ?_, ?_, rfl⟩
  · intro p n t ht; cases ht
  · intro p n _ e he; cases he
  · intro p p' n n' t ht; cases ht
  · intro a ha
    simp only [ads, List.mem_cons, List.not_mem_nil, or_false] at ha
    exact .inl ha
  · intro i d hd; cases hd
  · intro i _ s; exact ⟨rfl, rfl⟩

theorem can_content (m : Can) : m.proxy = m.content.1 ∧ m.translate = some m.content.2 := by
  cases m <;> exact ⟨rfl, rfl⟩

theorem lastT_cons (σ : Spec) (p : Proxy) (b : Name) (x : Payload) (p' : Proxy) (n : Name) :
    ({ σ with heard := (p, b, x) :: σ.heard } : Spec).lastT p' n = if p = p' ∧ topicName p' b = n then some x else σ.lastT p' n := by
  unfold Spec.lastT
  by_cases hc : p = p' ∧ topicName p' b = n
  · rw [if_pos hc, List.find?_cons_of_pos (by simpa using hc)]
    rfl
  · rw [if_neg hc, List.find?_cons_of_neg (by simpa using hc)]

theorem find_cons (n k : Name) (t : Nat) (l : List (Name × Nat)) : find n ((k, t) :: l) = if k = n then some t else find n l := rfl

variable {b0 : MsgBus.Bus} {g : Gw} {σ : Spec} {h : List MsgBus.Op}

/-- A message from a known board -/
theorem can_ok (I : Inv b0 g σ h) {src : BitVec 8} {b : Name} (m : Can) (hb : BusEnum.getStrId g.mgr.en src = .ok (some b)) :
    ∃ g' h', process g src m = .ok g' ∧ g'.mgr = g.mgr ∧ Inv b0 g' { σ with heard := (m.content.1, b, m.content.2) :: σ.heard } h' := by
  obtain ⟨hm1, hm2⟩ := can_content m
  unfold process
  rw [hb]
  simp only [Motors.lift_ok, liftM_ok, bind_ok, pure_eq]
  rw [hm1, hm2]
  generalize m.content.1 = p
  generalize m.content.2 = x
  unfold findOrCreate
  cases hf : find (topicName p b) (g.maps p) with
  | some t =>
    simp only [bind_ok]
    obtain ⟨k1, k2, k3, k4⟩ := I.known _ _ _ hf
    refine ⟨_, h, rfl, rfl, I.dev, I.ids, I.hist, I.enc, ?_, ?_, ?_, I.sep, I.origin, I.vals, I.none, I.count⟩
    · show upd g.data t (some x) 0 = _
      rw [HeapList.upd_ne _ _ (Ne.symm k2)]
      exact I.wheels
    · intro p' n t' ht'
      obtain ⟨j1, j2, j3, b', x', j4, j5⟩ := I.known _ _ _ ht'
      refine ⟨j1, j2, ?_, b', x', List.mem_cons_of_mem _ j4, j5⟩
      show upd g.data t (some x) t' = _
      rw [lastT_cons]
      by_cases e : t' = t
      · subst e
        obtain ⟨e1, e2⟩ := I.sep _ _ _ _ _ hf ht'
        subst e1
        rw [HeapList.upd_self, if_pos ⟨rfl, e2⟩]
      · rw [HeapList.upd_ne _ _ e, if_neg, j3]
        rintro ⟨e1, e2⟩
        subst e1
        subst e2
        have ht2 : find (topicName p b) (g.maps p) = some t' := ht'
        rw [hf] at ht2
        exact e (Option.some.inj ht2).symm
    · intro p' n hn e he hp'
      rcases List.mem_cons.mp he with rfl | he
      · simp only at hp'
        subst hp'
        rintro rfl
        have hn' : find (topicName p b) (g.maps p) = none := hn
        rw [hf] at hn'
        cases hn'
      · exact I.unknown p' n hn e he hp'
  | none =>
    simp only
    have hfresh0 : 0 < g.fresh := I.hist.lt _ I.enc
    obtain ⟨bus', e1, H⟩ := newTopic_ok (g := { g with maps := fun q => if q = p then (topicName p b, g.fresh) :: g.maps p else g.maps q }) I.hist (topicName p b)
    rw [e1]
    simp only [bind_ok, pure_eq]
    have lt : ∀ {p' n t}, find n (g.maps p') = some t → t < g.fresh := fun ht => I.hist.lt _ (I.known _ _ _ ht).1
    have hmap : ∀ p' n, find n (if p' = p then (topicName p b, g.fresh) :: g.maps p else g.maps p') =
        if p' = p ∧ topicName p b = n then some g.fresh else find n (g.maps p') := by
      intro p' n
      by_cases e : p' = p
      · subst e
        rw [if_pos rfl, find_cons]
        by_cases e2 : topicName p' b = n
        · rw [if_pos e2, if_pos ⟨rfl, e2⟩]
        · rw [if_neg e2, if_neg (fun hh => e2 hh.2)]
      · rw [if_neg e, if_neg (fun hh => e hh.1)]
    refine ⟨_, _, rfl, rfl, I.dev, I.ids, H, ?_, ?_, ?_, ?_, ?_, ?_, I.vals, I.none, I.count⟩
    · simp only [ads]
      exact List.mem_cons_of_mem _ I.enc
    · show upd (upd g.data g.fresh Option.none) g.fresh (some x) 0 = _
      rw [HeapList.upd_ne _ _ (by omega), HeapList.upd_ne _ _ (by omega)]
      exact I.wheels
    · intro p' n t ht
      have ht1 := (hmap p' n).symm.trans ht
      show (t, n) ∈ (g.fresh, topicName p b) :: ads h ∧ t ≠ 0 ∧ upd (upd g.data g.fresh Option.none) g.fresh (some x) t = _ ∧ _
      rw [lastT_cons]
      by_cases e : p' = p ∧ topicName p b = n
      · rw [if_pos e] at ht1
        simp only [Option.some.injEq] at ht1
        obtain ⟨e1, e2⟩ := e
        subst e1; subst e2; subst ht1
        refine ⟨List.mem_cons_self, by omega, ?_, b, x, List.mem_cons_self, rfl⟩
        rw [HeapList.upd_self, if_pos ⟨rfl, rfl⟩]
      · rw [if_neg e] at ht1
        obtain ⟨j1, j2, j3, b', x', j4, j5⟩ := I.known _ _ _ ht1
        have := lt ht1
        refine ⟨List.mem_cons_of_mem _ j1, j2, ?_, b', x', List.mem_cons_of_mem _ j4, j5⟩
        rw [HeapList.upd_ne _ _ (by omega), HeapList.upd_ne _ _ (by omega), if_neg, j3]
        rintro ⟨e1, e2⟩
        subst e1
        exact e ⟨rfl, e2⟩
    · intro p' n hn e he hp'
      have hn1 := (hmap p' n).symm.trans hn
      have hne : ¬ (p' = p ∧ topicName p b = n) := by
        intro hc
        rw [if_pos hc] at hn1
        cases hn1
      rw [if_neg hne] at hn1
      rcases List.mem_cons.mp he with rfl | he
      · simp only at hp'
        subst hp'
        exact fun e2 => hne ⟨rfl, e2⟩
      · exact I.unknown p' n hn1 e he hp'
    · intro p1 p2 n1 n2 t ht1 ht2
      have h1 := (hmap p1 n1).symm.trans ht1
      have h2 := (hmap p2 n2).symm.trans ht2
      by_cases c1 : p1 = p ∧ topicName p b = n1 <;> by_cases c2 : p2 = p ∧ topicName p b = n2
      · exact ⟨c1.1.trans c2.1.symm, c1.2.symm.trans c2.2⟩
      · rw [if_pos c1] at h1
        rw [if_neg c2] at h2
        have := lt h2
        have := Option.some.inj h1
        omega
      · rw [if_neg c1] at h1
        rw [if_pos c2] at h2
        have := lt h1
        have := Option.some.inj h2
        omega
      · rw [if_neg c1] at h1
        rw [if_neg c2] at h2
        exact I.sep _ _ _ _ _ h1 h2
    · intro a ha
      have ha' : a ∈ (g.fresh, topicName p b) :: ads h := ha
      rcases List.mem_cons.mp ha' with rfl | ha'
      · right; left
        refine ⟨p, ?_⟩
        exact (hmap _ _).trans (if_pos ⟨rfl, rfl⟩)
      · rcases I.origin a ha' with h1 | ⟨p', h1⟩ | h1
        · exact .inl h1
        · right; left
          refine ⟨p', (hmap _ _).trans ?_⟩
          rw [if_neg]
          · exact h1
          · rintro ⟨e1, e2⟩
            subst e1
            rw [← e2, hf] at h1
            cases h1
        · exact .inr (.inr h1)

/-- Another topic -/
theorem other_ok (I : Inv b0 g σ h) (n : Name) :
    ∃ g' h', newTopic g n = .ok g' ∧ g'.mgr = g.mgr ∧ Inv b0 g' { σ with others := n :: σ.others } h' := by
  have hfresh0 : 0 < g.fresh := I.hist.lt _ I.enc
  obtain ⟨bus', e1, H⟩ := newTopic_ok I.hist n
  refine ⟨_, _, e1, rfl, I.dev, I.ids, H, ?_, ?_, ?_, I.unknown, I.sep, ?_, I.vals, I.none, I.count⟩
  · simp only [ads]
    exact List.mem_cons_of_mem _ I.enc
  · show upd g.data g.fresh Option.none 0 = _
    rw [HeapList.upd_ne _ _ (by omega)]
    exact I.wheels
  · intro p' n' t ht
    obtain ⟨j1, j2, j3, j4⟩ := I.known _ _ _ ht
    have := I.hist.lt _ j1
    refine ⟨List.mem_cons_of_mem _ j1, j2, ?_, j4⟩
    show upd g.data g.fresh Option.none t = _
    have ht' : t < g.fresh := this
    rw [HeapList.upd_ne _ _ (by omega)]
    exact j3
  · intro a ha
    have ha' : a ∈ (g.fresh, n) :: ads h := ha
    rcases List.mem_cons.mp ha' with rfl | ha'
    · exact .inr (.inr List.mem_cons_self)
    · rcases I.origin a ha' with h1 | h1 | h1
      · exact .inl h1
      · exact .inr (.inl h1)
      · exact .inr (.inr (List.mem_cons_of_mem _ h1))

/-- The enumerator's answer for an id -/
theorem board_ok (I : Inv b0 g σ h) (src : BitVec 8) : BusEnum.getStrId g.mgr.en src = .ok (σ.board src) := by
  obtain ⟨β, R⟩ := I.dev
  rcases R.en.byId src with ⟨s, d, h1, h2, -, -⟩ | ⟨h1, h2, -⟩
  · rw [h2, board_eq I.ids (by rw [← R.ids]; exact h1)]
  · rw [h2, board_none (by rw [← R.ids]; exact h1)]

/-- The driver for an id is that of the motor, unless the board is an actuator. -/
theorem motor_id (I : Inv b0 g σ h) (src : BitVec 8) :
    (σ.motor src = none ∧ σ.board src = none ∧ BusEnum.getDriverByCan g.mgr.en src = .ok none) ∨
    (∃ i n, σ.board src = some n ∧ σ.dev.names[i]? = some n ∧ n ∉ σ.dev.acts ∧ σ.motor src = some i ∧ BusEnum.getDriverByCan g.mgr.en src = .ok (some (2 * i))) ∨
    (∃ j n, σ.board src = some n ∧ n ∈ σ.dev.acts ∧ n ∉ σ.dev.names ∧ σ.motor src = none ∧ BusEnum.getDriverByCan g.mgr.en src = .ok (some (2 * j + 1))) := by
  obtain ⟨β, R⟩ := I.dev
  rcases R.en.byId src with ⟨s, d, h1, -, h2, h3⟩ | ⟨h1, -, h2⟩
  · have hb := board_eq I.ids (show (s, src) ∈ σ.dev.ids by rw [← R.ids]; exact h1)
    have hd := BusEnum.assoc_some h3
    rcases Nat.mod_two_eq_zero_or_one d with h0 | h0
    · right; left
      have e : d = 2 * (d / 2) := by omega
      rw [e] at hd
      have hi := (R.motor _ _).mp hd
      refine ⟨d / 2, s, hb, hi, ?_, ?_, by rw [h2, ← e]⟩
      · intro ha
        obtain ⟨j, hj⟩ := (R.act s).mpr ha
        have a1 := BusEnum.assoc_of_mem R.en.nodup hj
        rw [h3] at a1
        have := Option.some.inj a1
        omega
      · unfold Spec.motor
        rw [hb]
        exact indexOf_eq R.names_nodup hi
    · right; right
      have e : d = 2 * (d / 2) + 1 := by omega
      rw [e] at hd
      have hnn : s ∉ σ.dev.names := by
        intro hn
        obtain ⟨i, hi⟩ := List.mem_iff_getElem?.mp hn
        have a1 := BusEnum.assoc_of_mem R.en.nodup ((R.motor s i).mpr hi)
        rw [h3] at a1
        have := Option.some.inj a1
        omega
      refine ⟨d / 2, s, hb, (R.act s).mp ⟨_, hd⟩, hnn, ?_, by rw [h2, ← e]⟩
      unfold Spec.motor
      rw [hb]
      exact indexOf_none hnn
  · left
    have hb := board_none (σ := σ) (id := src) (by rw [← R.ids]; exact h1)
    refine ⟨?_, hb, h2⟩
    unfold Spec.motor
    rw [hb]
    rfl

theorem getElem?_modify' {α : Type} {l : List α} {i k : Nat} {f : α → α} {d : α} (hd : (l.modify i f)[k]? = some d) :
    ∃ d0, l[k]? = some d0 ∧ d = if i = k then f d0 else d0 := by
  rw [List.getElem?_modify] at hd
  cases he : l[k]? with
  | none => rw [he] at hd; cases hd
  | some d0 =>
    rw [he] at hd
    simp only [Option.map_eq_map, Option.map_some, Option.some.injEq] at hd
    exact ⟨d0, rfl, hd.symm⟩

theorem motor_ok (I : Inv b0 g σ h) {src : BitVec 8} {i : Nat} (f : Feedback) (hi : BusEnum.getDriverByCan g.mgr.en src = .ok (some (2 * i)))
    (hlt : i < g.mgr.drivers.length) :
    ∃ g', motorFeedback g src f = .ok g' ∧ g'.mgr.cap = g.mgr.cap ∧ g'.mgr.en = g.mgr.en ∧
      Inv b0 g' { σ with
        val := fun j s => if j = i then (f.value s).getD (σ.val j s) else σ.val j s
        new := fun j s => if j = i ∧ (f.value s).isSome then true else σ.new j s
        count := fun j => if j = i then f.counts.getD (σ.count j) else σ.count j } h := by
  unfold motorFeedback
  rw [hi]
  simp only [Motors.lift_ok, liftM_ok, bind_ok, pure_eq]
  rw [if_pos (by omega), show 2 * i / 2 = i by omega]
  refine ⟨_, rfl, rfl, rfl, ?_, I.ids, I.hist, I.enc, I.wheels, I.known, I.unknown, I.sep, I.origin, ?_, ?_, ?_⟩
  · obtain ⟨β, R⟩ := I.dev
    refine ⟨β, ?_⟩
    have hv : (g.mgr.drivers.modify i fun d => f.apply d).map Motors.Driver.view = σ.dev.motors := by
      rw [Motors.map_modify_id _ _ _ _ (fun a => (apply_view f a).1)]
      exact R.drivers
    exact Motors.rel_drivers R hv rfl (Motors.modify_known (fun d => (apply_view f d).2) _ R.known)
  · intro k d hd s hs
    obtain ⟨d0, h0, rfl⟩ := getElem?_modify' hd
    obtain ⟨v1, v2⟩ := I.vals k d0 h0 s hs
    by_cases e : i = k
    · subst e
      rw [if_pos rfl]
      obtain ⟨a1, a2⟩ := apply_spec f d0 s hs
      rw [a1, a2, v1, v2]
      simp only [if_true, true_and]
      cases (f.value s).isSome <;> simp
    · have e' : ¬ k = i := fun x => e x.symm
      rw [if_neg e]
      simp only [e', false_and, if_false]
      exact ⟨v1, v2⟩
  · intro k hk s
    have hk' : g.mgr.drivers.length ≤ k := by
      have : (g.mgr.drivers.modify i fun d => f.apply d).length ≤ k := hk
      rw [List.length_modify] at this
      exact this
    have e' : ¬ k = i := by omega
    simp only [e', false_and, if_false]
    exact I.none k hk' s
  · funext j
    have hc := congrFun I.count j
    cases f <;> simp only [Feedback.counts, Option.getD_none, ite_self, Option.getD_some, hc]
    rename_i c
    by_cases e : j = i
    · subst e
      rw [HeapList.upd_self, if_pos rfl]
    · rw [HeapList.upd_ne _ _ e, if_neg e]
      exact hc

theorem take_ok (I : Inv b0 g σ h) (i : Nat) (s : BitVec 32) :
    Inv b0 { g with mgr := { g.mgr with drivers := g.mgr.drivers.modify i fun d => (d.takeStream s).1 } }
      { σ with new := fun j r => if j = i ∧ r = s.toNat then false else σ.new j r } h := by
  have hview : ∀ d : Motors.Driver, (d.takeStream s).1.view = d.view ∧ (d.takeStream s).1.id = d.id ∧ (d.takeStream s).1.canId = d.canId := by
    intro d
    unfold Motors.Driver.takeStream
    split <;> exact ⟨rfl, rfl, rfl⟩
  refine ⟨?_, I.ids, I.hist, I.enc, I.wheels, I.known, I.unknown, I.sep, I.origin, ?_, ?_, I.count⟩
  · obtain ⟨β, R⟩ := I.dev
    refine ⟨β, ?_⟩
    have hv : (g.mgr.drivers.modify i fun d => (d.takeStream s).1).map Motors.Driver.view = σ.dev.motors := by
      rw [Motors.map_modify_id _ _ _ _ (fun a => (hview a).1)]
      exact R.drivers
    exact Motors.rel_drivers R hv rfl (Motors.modify_known (fun d => (hview d).2) _ R.known)
  · intro k d hd r hr
    obtain ⟨d0, h0, rfl⟩ := getElem?_modify' hd
    obtain ⟨v1, v2⟩ := I.vals k d0 h0 r hr
    by_cases e : i = k
    · subst e
      rw [if_pos rfl]
      by_cases hs : s.toNat < 10
      · obtain ⟨-, -, a3, a4, -⟩ := (Motors.stream_spec d0 s 0).2 hs
        rw [a4, a3 r (by omega), v1, v2]
        refine ⟨rfl, ?_⟩
        by_cases e2 : r = s.toNat <;> simp [e2]
      · obtain ⟨-, a2, -⟩ := (Motors.stream_spec d0 s 0).1 (by omega)
        rw [a2, v1, v2]
        have : ¬ r = s.toNat := by omega
        simp [this]
    · have e' : ¬ k = i := fun x => e x.symm
      rw [if_neg e]
      simp only [e', false_and, if_false]
      exact ⟨v1, v2⟩
  · intro k hk r
    have hk' : g.mgr.drivers.length ≤ k := by
      have : (g.mgr.drivers.modify i fun d => (d.takeStream s).1).length ≤ k := hk
      rw [List.length_modify] at this
      exact this
    obtain ⟨a, b⟩ := I.none k hk' r
    refine ⟨a, ?_⟩
    show (if _ then _ else _) = _
    split
    · rfl
    · exact b

theorem dev_ok (I : Inv b0 g σ h) (op : Motors.Op) (ha : Motors.Allowed g.mgr.cap g.mgr.en.cap σ.dev op) :
    ∃ m ms, Motors.step g.mgr op = .ok (m, ms) ∧ m.cap = g.mgr.cap ∧ m.en.cap = g.mgr.en.cap ∧
      Inv b0 { g with mgr := m } { σ with dev := (σ.dev.step g.mgr.cap op).1 } h := by
  obtain ⟨β, R⟩ := I.dev
  obtain ⟨m, β', e, c1, c2, R'⟩ := Motors.step_ok R op ha
  refine ⟨m, _, e, c1, c2, ⟨β', R'⟩, step_ids_nodup _ _ _ I.ids, I.hist, I.enc, I.wheels, I.known, I.unknown, I.sep, I.origin, ?_, ?_, I.count⟩
  · intro i d hd s hs
    have hc : (m.drivers.map core)[i]? = some (core d) := by rw [List.getElem?_map, hd]; rfl
    rcases step_core e with e1 | e1
    · rw [e1, List.getElem?_map] at hc
      cases h0 : g.mgr.drivers[i]? with
      | none => rw [h0] at hc; cases hc
      | some d0 =>
        rw [h0] at hc
        have hcc := Option.some.inj hc
        have := I.vals i d0 h0 s hs
        unfold core at hcc
        simp only [Prod.mk.injEq] at hcc
        rw [← hcc.1, ← hcc.2]
        exact this
    · rw [e1, List.getElem?_append] at hc
      split at hc
      · rw [List.getElem?_map] at hc
        cases h0 : g.mgr.drivers[i]? with
        | none => rw [h0] at hc; cases hc
        | some d0 =>
          rw [h0] at hc
          have hcc := Option.some.inj hc
          have := I.vals i d0 h0 s hs
          unfold core at hcc
          simp only [Prod.mk.injEq] at hcc
          rw [← hcc.1, ← hcc.2]
          exact this
      · rename_i hlt
        rw [List.length_map] at hlt hc
        have hn := I.none i (by omega) s
        have h0 : i - g.mgr.drivers.length = 0 := by
          refine Classical.byContradiction fun hne => ?_
          rw [List.getElem?_eq_none (by simp; omega)] at hc
          cases hc
        rw [h0] at hc
        simp only [List.getElem?_cons_zero, Option.some.injEq, core, Prod.mk.injEq] at hc
        rw [← hc.1, ← hc.2]
        show (0 : F) = σ.val i s ∧ (0#32).getLsbD s = σ.new i s
        rw [hn.1, hn.2]
        exact ⟨rfl, by simp⟩
  · intro i hi s
    apply I.none i _ s
    have hl : g.mgr.drivers.length ≤ m.drivers.length := by
      rcases step_core e with e1 | e1
      · have := congrArg List.length e1
        simp only [List.length_map] at this
        omega
      · have := congrArg List.length e1
        simp only [List.length_map, List.length_append, List.length_singleton] at this
        omega
    have hi' : m.drivers.length ≤ i := hi
    omega

theorem step_inv (I : Inv b0 g σ h) (op : Op) (ha : Allowed g.mgr.cap g.mgr.en.cap σ op) :
    ∃ g' h', step g op = .ok g' ∧ g'.mgr.cap = g.mgr.cap ∧ g'.mgr.en.cap = g.mgr.en.cap ∧ Inv b0 g' (σ.step g.mgr.cap op) h' := by
  cases op with
  | dev op =>
    obtain ⟨m, ms, e, c1, c2, I'⟩ := dev_ok I op ha
    refine ⟨_, h, ?_, c1, c2, I'⟩
    simp only [step, e]
    rfl
  | can src m =>
    have hb := board_ok I src
    simp only [Spec.step]
    cases hs : σ.board src with
    | none =>
      rw [hs] at hb
      refine ⟨g, h, ?_, rfl, rfl, I⟩
      simp only [step, process, hb]
      rfl
    | some b =>
      rw [hs] at hb
      obtain ⟨g', h', e, c, I'⟩ := can_ok I m hb
      exact ⟨g', h', e, by rw [c], by rw [c], I'⟩
  | wheels l r =>
    refine ⟨_, h, rfl, rfl, rfl, I.dev, I.ids, I.hist, I.enc, ?_, ?_, I.unknown, I.sep, I.origin, I.vals, I.none, I.count⟩
    · show upd g.data 0 (some (.wheels l r)) 0 = some (.wheels l r)
      exact HeapList.upd_self _ _ _
    · intro p n t ht
      obtain ⟨j1, j2, j3, j4⟩ := I.known _ _ _ ht
      refine ⟨j1, j2, ?_, j4⟩
      show upd g.data 0 _ t = _
      rw [HeapList.upd_ne _ _ j2]
      exact j3
  | other n =>
    obtain ⟨g', h', e, c, I'⟩ := other_ok I n
    exact ⟨g', h', e, by rw [c], by rw [c], I'⟩
  | motor src f =>
    rcases motor_id I src with ⟨h1, -, h2⟩ | ⟨i, n, hb, hi, -, h1, h2⟩ | ⟨j, n, hb, hn, -, -, -⟩
    · refine ⟨g, h, ?_, rfl, rfl, ?_⟩
      · simp only [step, motorFeedback, h2]
        rfl
      · simp only [Spec.step, h1]
        exact I
    · have hlt : i < g.mgr.drivers.length := by
        obtain ⟨β, R⟩ := I.dev
        rw [← R.driver_names] at hi
        have := (List.getElem?_eq_some_iff.mp hi).1
        rw [List.length_map] at this
        exact this
      obtain ⟨g', e, c1, c2, I'⟩ := motor_ok I f h2 hlt
      refine ⟨g', h, e, c1, by rw [c2], ?_⟩
      simp only [Spec.step, h1]
      exact I'
    · exact absurd hn (ha n hb)
  | take i s => exact ⟨_, h, rfl, rfl, rfl, take_ok I i s⟩

theorem run_inv (ops : List Op) : ∀ {g : Gw} {σ : Spec} {h : List MsgBus.Op}, Inv b0 g σ h → AllAllowed g.mgr.cap g.mgr.en.cap σ ops →
    ∃ g' h', run g ops = .ok g' ∧ g'.mgr.cap = g.mgr.cap ∧ g'.mgr.en.cap = g.mgr.en.cap ∧ Inv b0 g' (σ.run g.mgr.cap ops) h' := by
  induction ops with
  | nil => intro g σ h I _; exact ⟨g, h, rfl, rfl, rfl, I⟩
  | cons op ops ih =>
    intro g σ h I ha
    obtain ⟨g1, h1, e1, c1, c2, I1⟩ := step_inv I op ha.1
    obtain ⟨g2, h2, e2, c3, c4, I2⟩ := ih I1 (by rw [c1, c2]; exact ha.2)
    rw [c1] at I2
    refine ⟨g2, h2, ?_, c3.trans c1, c4.trans c2, I2⟩
    unfold run
    rw [e1]
    exact e2

end Verif.Gateway
