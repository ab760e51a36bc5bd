import Verif.Flash.Lemmas

/-!
# Properties of the parameter storage
-/

namespace Verif.Flash

open Verif.Crc (Byte crc32 crc32_inj)
open Spec (head block blank Quiet Tail Stored used InSector Serialises saved)

/-! ## One save -/

theorem exec_erase {n sec : Nat} {tail X : List Byte} (hs : InSector n sec tail) (hX : X.length = n) :
    exec sec (X ++ tail) [.erase] = .ok (blank n ++ tail) := by
  obtain ⟨hle, rest, rfl⟩ := hs
  simp only [exec, Ev.apply, bind, Except.bind]
  have h1 : min sec (X ++ (blank (sec - n) ++ rest)).length = sec := by
    simp only [List.length_append, blank_length, hX]; omega
  have h2 : (X ++ (blank (sec - n) ++ rest)).drop sec = rest := by
    rw [← List.append_assoc, List.drop_left' (by rw [List.length_append, blank_length, hX]; omega)]
  rw [h1, h2, ← List.append_assoc, ← blank_add, show n + (sec - n) = sec by omega]
  rfl

/-- What precedes the search for a free block. -/
def pre (ds : List (List Byte)) : List Ev := if ds = [] then [.erase] else []

theorem writeHeader_spec (sec : Nat) (A d B : List Byte) (evs : List Ev) {dst : Nat} (hd : dst = A.length) :
    writeHeader sec ⟨A ++ blank 12 ++ d ++ B, evs⟩ dst d.length =
      .ok ⟨A ++ block d ++ B, evs ++ progs dst (head d)⟩ := by
  subst hd
  generalize hc : crc32 crcInit (toLe (BitVec.ofNat 32 d.length)) = c
  generalize hn : BitVec.ofNat 32 d.length = n
  have e1 : exec sec (A ++ blank 12 ++ d ++ B) (progs A.length (toLe c)) = .ok (A ++ toLe c ++ blank 8 ++ (d ++ B)) := by
    have := exec_progs' sec A (toLe c) (d ++ B) (k := 12) rfl (by rw [toLe_length]; omega)
    rw [toLe_length] at this
    rw [← this]; simp only [List.append_assoc]
  have e2 : exec sec (A ++ toLe c ++ blank 8 ++ (d ++ B)) (progs (A.length + 4) (toLe n)) =
      .ok (A ++ toLe c ++ toLe n ++ blank 4 ++ (d ++ B)) := by
    have := exec_progs' sec (A ++ toLe c) (toLe n) (d ++ B) (k := 8) (a := A.length + 4) (by rw [List.length_append, toLe_length])
      (by rw [toLe_length]; omega)
    rw [toLe_length] at this
    rw [← this]
  have e3 : slice (A ++ toLe c ++ toLe n ++ blank 4 ++ (d ++ B)) (A.length + header) d.length = .ok d := by
    rw [← slice_at (A ++ toLe c ++ toLe n ++ blank 4) d B (p := A.length + header) (n := d.length) _ rfl]
    · simp only [List.append_assoc]
    · simp only [List.length_append, toLe_length, blank_length, header]
  have e4 : exec sec (A ++ toLe c ++ toLe n ++ blank 4 ++ (d ++ B)) (progs (A.length + 8) (toLe (crc32 crcInit d))) =
      .ok (A ++ toLe c ++ toLe n ++ toLe (crc32 crcInit d) ++ blank 0 ++ (d ++ B)) := by
    have := exec_progs' sec (A ++ toLe c ++ toLe n) (toLe (crc32 crcInit d)) (d ++ B) (k := 4) (a := A.length + 8)
      (by simp only [List.length_append, toLe_length]) (by rw [toLe_length]; omega)
    rw [toLe_length] at this
    rw [← this]
  have e5 : progs A.length (head d) = progs A.length (toLe c) ++ (progs (A.length + 4) (toLe n) ++ progs (A.length + 8) (toLe (crc32 crcInit d))) := by
    rw [head, hc, hn, progs_append, progs_append, toLe_length, List.append_assoc]
    simp only [List.length_append, toLe_length]
  have e6 : block d = toLe c ++ toLe n ++ toLe (crc32 crcInit d) ++ d := by rw [block, head, hc, hn]
  rw [hn] at hc
  simp only [writeHeader, St.emit, hc, hn, e1, e2, e3, e4, bind, Except.bind, pure, Except.pure]
  rw [e5, e6]
  simp only [List.append_assoc, show blank 0 = [] from rfl, List.nil_append]

/-- The store before and after the search for a free block. -/
theorem prepare_spec {n sec : Nat} {tail : List Byte} {m : Flash} {ds : List (List Byte)} (hs : InSector n sec tail) (ht : Tail tail)
    (h : Stored n tail m ds) (evs : List Ev) :
    prepare sec ⟨m, evs⟩ = .ok ⟨m, evs ++ pre ds⟩ ∧ findFirstFree (m.length + 1) m 0 = .ok (used ds) := by
  obtain ⟨hd, k, rfl, hk⟩ := h
  have hv := isValid_blank (ds.flatMap block) k ht (p := used ds) rfl
  rw [List.append_assoc] at hv ⊢
  obtain ⟨h1, h2⟩ := walk_stop hd hv
  refine ⟨?_, h2⟩
  simp only [prepare, h1, bind, Except.bind]
  cases ds with
  | nil =>
    simp only [List.length_nil, List.flatMap_nil, Nat.zero_add] at hk
    subst hk
    have := exec_erase (X := blank k) hs (blank_length k)
    simp only [List.getLast?_nil, Option.map_none, St.emit, pre, if_true, List.flatMap_nil, List.nil_append, this, bind, Except.bind, pure,
      Except.pure]
  | cons d ds => simp [List.getLast?_cons, pre, pure, Except.pure]

section

variable {n sec : Nat} {tail : List Byte} {m : Flash} {ds : List (List Byte)} {ser : Nat → List Byte × Bool} {d : List Byte}

theorem place_room (h2 : findFirstFree (m.length + 1) m 0 = .ok (used ds)) (hle : 12 < n - used ds) (evs : List Ev) :
    place sec n ⟨m, evs⟩ = .ok (⟨m, evs⟩, used ds, n - used ds) := by
  simp only [place, h2, bind, Except.bind, if_pos (show used ds ≤ n by omega), pure, Except.pure]
  rw [if_neg (by rw [header]; omega)]

theorem place_full (hs : InSector n sec tail) (h2 : findFirstFree (m.length + 1) m 0 = .ok (used ds)) (h : Stored n tail m ds)
    (hle : n - used ds ≤ 12) (evs : List Ev) : place sec n ⟨m, evs⟩ = .ok (⟨blank n ++ tail, evs ++ [.erase]⟩, 0, n) := by
  obtain ⟨hd, k, rfl, hk⟩ := h
  have hu : used ds = (ds.flatMap block).length := rfl
  have he := exec_erase (X := ds.flatMap block ++ blank k) hs (by rw [List.length_append, blank_length]; exact hk)
  simp only [place, h2, bind, Except.bind, if_pos (show used ds ≤ n by omega), pure, Except.pure, St.emit, he]
  rw [if_pos (by rw [header]; omega)]

/-- Writing a document and its header behind `A`. -/
theorem write_spec (sec : Nat) (A d B : List Byte) {k : Nat} (hk : 12 + d.length ≤ k) (evs : List Ev) (heven : d.length % 2 = 0) :
    (do
      let s ← St.emit sec ⟨A ++ blank k ++ B, evs⟩ (progs (A.length + header) d)
      finish sec s A.length d.length : Except Err St) =
    .ok ⟨A ++ block d ++ blank (k - 12 - d.length) ++ B, evs ++ (progs (A.length + 12) d ++ progs A.length (head d))⟩ := by
  have e1 : exec sec (A ++ blank k ++ B) (progs (A.length + header) d) =
      .ok (A ++ blank 12 ++ d ++ (blank (k - 12 - d.length) ++ B)) := by
    have := exec_progs' sec (A ++ blank 12) d B (k := k - 12) (a := A.length + header)
      (by rw [List.length_append, blank_length]; rfl) (by omega)
    rw [show A ++ blank 12 ++ blank (k - 12) ++ B = A ++ blank k ++ B by
      rw [show k = 12 + (k - 12) by omega, blank_add]; simp] at this
    rw [this]; simp only [List.append_assoc]
  have hwh := writeHeader_spec sec A d (blank (k - 12 - d.length) ++ B) (evs ++ progs (A.length + header) d) rfl
  simp only [St.emit, e1, bind, Except.bind, pure, Except.pure, finish]
  rw [if_neg (by omega), hwh]
  simp only [List.append_assoc, header]

/-- There is room behind the last block. -/
theorem save_fits (hs : InSector n sec tail) (ht : Tail tail) (h : Stored n tail m ds) (hr : used ds + 12 + d.length ≤ n)
    (h12 : d ≠ []) (hser : ser (n - used ds - 12) = (d, true)) (heven : d.length % 2 = 0) (f : Nat) (evs : List Ev) :
    ∃ k, save sec n ser (f + 1) ⟨m, evs⟩ = .ok ⟨ds.flatMap block ++ block d ++ blank k ++ tail,
        evs ++ (pre ds ++ (progs (used ds + 12) d ++ progs (used ds) (head d)))⟩ ∧ used ds + 12 + d.length + k = n := by
  have hdl := List.length_pos_iff.mpr h12
  obtain ⟨h1, h2⟩ := prepare_spec hs ht h evs
  have h3 := place_room (sec := sec) (n := n) h2 (by omega) (evs ++ pre ds)
  obtain ⟨hd, k, rfl, hk⟩ := h
  have hu : used ds = (ds.flatMap block).length := rfl
  have h4 := write_spec sec (ds.flatMap block) d tail (k := k) (by omega) (evs ++ pre ds) heven
  refine ⟨k - 12 - d.length, ?_, by omega⟩
  rw [save, h1]
  simp only [bind, Except.bind] at h4 ⊢
  rw [h3]
  simp only [show n - used ds - header = n - used ds - 12 from rfl, hser]
  simp only [show (true == false) = false from rfl, Bool.false_eq_true, if_false, hu]
  rw [h4]
  simp only [List.append_assoc]

/-- Not even room for a header. -/
theorem save_full (hs : InSector n sec tail) (ht : Tail tail) (h : Stored n tail m ds) (hr : 12 + d.length ≤ n)
    (h12 : n - used ds ≤ 12) (hser : ser (n - 12) = (d, true)) (heven : d.length % 2 = 0) (f : Nat) (evs : List Ev) :
    ∃ k, save sec n ser (f + 1) ⟨m, evs⟩ = .ok ⟨block d ++ blank k ++ tail,
        evs ++ (pre ds ++ ([.erase] ++ (progs 12 d ++ progs 0 (head d))))⟩ ∧ 12 + d.length + k = n := by
  obtain ⟨h1, h2⟩ := prepare_spec hs ht h evs
  have h3 := place_full hs h2 h h12 (evs ++ pre ds)
  have h4 := write_spec sec [] d tail (k := n) (by omega) (evs ++ pre ds ++ [.erase]) heven
  refine ⟨n - 12 - d.length, ?_, by omega⟩
  rw [save, h1]
  simp only [bind, Except.bind, List.nil_append, List.length_nil, Nat.zero_add] at h4 ⊢
  rw [h3]
  simp only [show n - header = n - 12 from rfl, hser, Nat.zero_add]
  simp only [show (true == false) = false from rfl, Bool.false_eq_true, if_false]
  rw [h4]
  simp only [List.append_assoc]

/-- The document does not fit behind the last block. -/
theorem save_retry (hs : InSector n sec tail) (ht : Tail tail) (h : Stored n tail m ds) (h12 : 12 < n - used ds) {x : List Byte}
    (hser : ser (n - used ds - 12) = (x, false)) (hx : x.length ≤ n - used ds - 12) (f : Nat) (evs : List Ev) :
    save sec n ser (f + 1) ⟨m, evs⟩ =
      save sec n ser f ⟨blank n ++ tail, evs ++ (pre ds ++ (progs (used ds + 12) x ++ [.erase]))⟩ := by
  obtain ⟨h1, h2⟩ := prepare_spec hs ht h evs
  have h3 := place_room (sec := sec) h2 h12 (evs ++ pre ds)
  obtain ⟨hd, k, rfl, hk⟩ := h
  have hu : used ds = (ds.flatMap block).length := rfl
  have e1 := exec_progs' sec (ds.flatMap block ++ blank 12) x tail (k := k - 12) (a := used ds + header)
      (by rw [List.length_append, blank_length]; rfl) (by omega)
  rw [show ds.flatMap block ++ blank 12 ++ blank (k - 12) ++ tail = ds.flatMap block ++ blank k ++ tail by
      rw [show k = 12 + (k - 12) by omega, blank_add]; simp] at e1
  have e2 := exec_erase (X := ds.flatMap block ++ blank 12 ++ x ++ blank (k - 12 - x.length)) hs (by
    simp only [List.length_append, blank_length]; omega)
  rw [save, h1]
  simp only [bind, Except.bind]
  rw [h3]
  simp only [show n - used ds - header = n - used ds - 12 from rfl, hser, St.emit, e1, e2, bind, Except.bind, pure, Except.pure]
  rw [if_pos (by decide)]
  simp only [List.append_assoc, header]

theorem stored_empty : Stored n tail (blank n ++ tail) [] := ⟨by simp, n, by simp, by simp⟩

theorem stored_snoc {k : Nat} (hd : ∀ d ∈ ds, d.length < 2 ^ 32) (hdl : d.length < 2 ^ 32) (hk : used ds + 12 + d.length + k = n) :
    Stored n tail (ds.flatMap block ++ block d ++ blank k ++ tail) (ds ++ [d]) := by
  refine ⟨?_, k, ?_, ?_⟩
  · intro x hx
    rcases List.mem_append.mp hx with h | h
    · exact hd x h
    · rw [List.mem_singleton.mp h]; exact hdl
  · simp [List.flatMap_append]
  · rw [List.flatMap_append, List.length_append]
    simp only [List.flatMap_cons, List.flatMap_nil, List.append_nil, block_length]
    have : used ds = (ds.flatMap block).length := rfl
    omega

/-- The events of a save: the new block is written behind the others, or at the start after an erase. -/
theorem save_events (hs : InSector n sec tail) (ht : Tail tail) (h : Stored n tail m ds) (hser : Serialises n ser d) (hne : d ≠ [])
    (heven : d.length % 2 = 0) (hfit : 12 + d.length ≤ n) (hlen : d.length < 2 ^ 32) (f : Nat) :
    ∃ s, save sec n ser (f + 2) ⟨m, []⟩ = .ok s ∧ Stored n tail s.m (saved n ds d) ∧
      ((used ds + 12 + d.length ≤ n ∧ s.evs = pre ds ++ (progs (used ds + 12) d ++ progs (used ds) (head d))) ∨
        (¬used ds + 12 + d.length ≤ n ∧ ∃ x e, (x = [] ∨ used ds + 12 + x.length ≤ n) ∧ (e = [.erase] ∨ e = [.erase, .erase]) ∧
          s.evs = progs (used ds + 12) x ++ (e ++ (progs 12 d ++ progs 0 (head d))))) := by
  by_cases hr : used ds + 12 + d.length ≤ n
  · obtain ⟨k, h1, h2⟩ := save_fits (ser := ser) hs ht h hr hne (hser.fits _ (by omega) (by omega)) heven (f + 1) []
    refine ⟨_, h1, ?_, .inl ⟨hr, by simp⟩⟩
    rw [saved, if_pos hr]
    exact stored_snoc h.1 hlen h2
  · have hpre : pre ds = [] := by
      rw [pre, if_neg]
      intro hds; subst hds
      exact hr (by simp only [used, List.flatMap_nil, List.length_nil]; omega)
    have hone : ∀ k, 12 + d.length + k = n → Stored n tail (block d ++ blank k ++ tail) (saved n ds d) := by
      intro k hk
      rw [saved, if_neg hr]
      exact stored_snoc (ds := []) (by simp) hlen (by simpa [used] using hk)
    by_cases h12 : n - used ds ≤ 12
    · obtain ⟨k, h1, h2⟩ := save_full (ser := ser) hs ht h hfit h12 (hser.fits _ (by omega) (by omega)) heven (f + 1) []
      refine ⟨_, h1, hone k h2, .inr ⟨hr, [], [.erase], .inl rfl, .inl rfl, ?_⟩⟩
      rw [hpre]; rfl
    · obtain ⟨g1, g2⟩ := hser.full (n - used ds - 12) (by omega) (by omega) (by omega)
      have h1 := save_retry (ser := ser) (x := (ser (n - used ds - 12)).1) hs ht h (by omega) (by rw [← g1]) g2 (f + 1) []
      obtain ⟨k, h2, h3⟩ := save_fits (ser := ser) (ds := []) hs ht stored_empty (by simp only [used, List.flatMap_nil, List.length_nil]; omega) hne
        (hser.fits _ (by omega) (by simp only [used, List.flatMap_nil, List.length_nil]; omega)) heven f
        ([] ++ (pre ds ++ (progs (used ds + 12) (ser (n - used ds - 12)).1 ++ [.erase])))
      rw [h1, h2]
      refine ⟨_, rfl, hone k (by simpa [used] using h3), .inr ⟨hr, (ser (n - used ds - 12)).1, [.erase, .erase], .inr (by omega), .inr rfl, ?_⟩⟩
      rw [hpre]; simp [pre, used]

/-- Saving a document of even length that fits in the region: afterwards the region holds it behind the older ones, or alone if
there was no room left. Missing: documents of odd length, see `odd_save_loses_next`. -/
theorem save_stored_partial (hs : InSector n sec tail) (ht : Tail tail) (h : Stored n tail m ds) (hser : Serialises n ser d) (hne : d ≠ [])
    (heven : d.length % 2 = 0) (hfit : 12 + d.length ≤ n) (hlen : d.length < 2 ^ 32) (f : Nat) :
    ∃ s, save sec n ser (f + 2) ⟨m, []⟩ = .ok s ∧ Stored n tail s.m (saved n ds d) := by
  obtain ⟨s, h1, h2, _⟩ := save_events hs ht h hser hne heven hfit hlen f
  exact ⟨s, h1, h2⟩

/-- Loading finds the last document stored. -/
theorem load_stored (ht : Tail tail) (h : Stored n tail m ds) : loadDoc m = .ok ds.getLast? := by
  obtain ⟨hd, k, rfl, _⟩ := h
  have hv := isValid_blank (ds.flatMap block) k ht (p := used ds) rfl
  rw [List.append_assoc] at hv ⊢
  exact loadDoc_stop hd hv

theorem saved_last : (saved n ds d).getLast? = some d := by
  rw [saved]; split <;> simp

/-- Programs of a save are inside the region (even length; the odd case is `odd_save_leaves_region`). -/
theorem save_in_region_partial (hs : InSector n sec tail) (ht : Tail tail) (h : Stored n tail m ds) (hser : Serialises n ser d) (hne : d ≠ [])
    (heven : d.length % 2 = 0) (hfit : 12 + d.length ≤ n) (hlen : d.length < 2 ^ 32) {f : Nat} {s : St}
    (hrun : save sec n ser (f + 2) ⟨m, []⟩ = .ok s) {a : Nat} {b : Byte} (hev : Ev.prog a b ∈ s.evs) : a < n := by
  obtain ⟨s', h1, _, h3⟩ := save_events hs ht h hser hne heven hfit hlen f
  rw [hrun] at h1
  injection h1 with h1
  subst h1
  have hp : ∀ {c : Nat} {l : List Byte}, Ev.prog a b ∈ progs c l → a < c + l.length := by
    intro c l
    induction l generalizing c with
    | nil => intro h; cases h
    | cons x l ih =>
      intro h
      simp only [progs, List.mem_cons] at h
      rcases h with h | h
      · injection h with h _; subst h; simp
      · have := ih h; simp only [List.length_cons]; omega
  have hpre : Ev.prog a b ∉ pre ds := by rw [pre]; split <;> simp
  rcases h3 with ⟨hr, he⟩ | ⟨_, x, e, hx, he', he⟩
  · rw [he] at hev
    simp only [List.mem_append, hpre, false_or] at hev
    rcases hev with h | h
    · have := hp h; omega
    · have := hp h; rw [head_length] at this; omega
  · rw [he] at hev
    simp only [List.mem_append] at hev
    rcases hev with h | h | h | h
    · have := hp h
      rcases hx with rfl | hx
      · cases h
      · omega
    · rcases he' with rfl | rfl <;> simp at h
    · have := hp h; omega
    · have := hp h; rw [head_length] at this; omega

/-! ## Many saves -/

/-- Saving one tree after the other. -/
def saves (sec n : Nat) : List (Nat → List Byte × Bool) → Flash → Except Err Flash
  | [], m => .ok m
  | ser :: l, m => do
    let s ← save sec n ser 2 ⟨m, []⟩
    saves sec n l s.m

/-- After any number of saves, loading finds the last document (even lengths). -/
theorem load_last_save_partial (hs : InSector n sec tail) (ht : Tail tail) :
    ∀ (sers : List ((Nat → List Byte × Bool) × List Byte)) (m : Flash) (ds : List (List Byte)), Stored n tail m ds →
      (∀ x ∈ sers, Serialises n x.1 x.2 ∧ x.2 ≠ [] ∧ x.2.length % 2 = 0 ∧ 12 + x.2.length ≤ n ∧ x.2.length < 2 ^ 32) →
      ∃ m', saves sec n (sers.map Prod.fst) m = .ok m' ∧
        loadDoc m' = .ok (match sers.getLast? with | some x => some x.2 | none => ds.getLast?) := by
  intro sers
  induction sers with
  | nil => intro m ds h _; exact ⟨m, rfl, load_stored ht h⟩
  | cons x sers ih =>
    intro m ds h hx
    obtain ⟨a1, a2, a3, a4, a5⟩ := hx x List.mem_cons_self
    obtain ⟨s, h1, h2⟩ := save_stored_partial hs ht h a1 a2 a3 a4 a5 0
    obtain ⟨m', h3, h4⟩ := ih s.m _ h2 (fun y hy => hx y (List.mem_cons_of_mem _ hy))
    refine ⟨m', ?_, ?_⟩
    · simp only [List.map_cons, saves, h1, bind, Except.bind]; exact h3
    · rw [h4, List.getLast?_cons]
      cases sers.getLast? with
      | none => simp [saved_last]
      | some y => rfl

/-! ## Power loss -/

/-- Whatever the number of events done, the flash is as `P` says. -/
def Crash (sec : Nat) (m : Flash) (evs : List Ev) (P : Flash → Prop) : Prop :=
  ∀ j, ∃ m', exec sec m (evs.take j) = .ok m' ∧ P m'

theorem crash_append {sec : Nat} {m m1 : Flash} {a b : List Ev} {P : Flash → Prop} (ha : Crash sec m a P) (h : exec sec m a = .ok m1)
    (hb : Crash sec m1 b P) : Crash sec m (a ++ b) P := by
  intro j
  by_cases hj : j ≤ a.length
  · obtain ⟨m', h1, h2⟩ := ha j
    exact ⟨m', by rw [List.take_append_of_le_length hj]; exact h1, h2⟩
  · obtain ⟨m', h1, h2⟩ := hb (j - a.length)
    refine ⟨m', ?_, h2⟩
    rw [List.take_append, List.take_of_length_le (by omega), exec_append, h]
    exact h1

/-- The header interrupted: either nothing is announced or the length is the right one. -/
theorem head_prefix (d : List Byte) (j : Nat) (a b c : BitVec 32) (h : (head d).take j ++ blank (12 - j) = toLe a ++ toLe b ++ toLe c) :
    a ≠ crc32 crcInit (toLe b) ∨ (a = crc32 crcInit (toLe (BitVec.ofNat 32 d.length)) ∧ b = BitVec.ofNat 32 d.length) := by
  by_cases hab : a = crc32 crcInit (toLe b)
  · right
    by_cases hj : j < 4
    · exfalso
      have h1 : ((head d).take j ++ blank (12 - j)).drop 3 = blank 9 := by
        rw [List.drop_append, List.drop_eq_nil_of_le (by rw [List.length_take, head_length]; omega), List.nil_append, List.length_take,
          head_length]
        simp only [blank, List.drop_replicate]
        congr 1; omega
      rw [h] at h1
      simp only [toLe, List.cons_append, List.nil_append, List.drop_succ_cons, List.drop_zero, blank, List.replicate, List.cons.injEq] at h1
      have hb : b = 0xFFFFFFFF#32 := by
        rw [← fromLe_toLe b, toLe, h1.2.1, h1.2.2.1, h1.2.2.2.1, h1.2.2.2.2.1]; rfl
      rw [hab, hb] at h1
      have : BitVec.ofNat 8 ((crc32 crcInit (toLe 0xFFFFFFFF#32)).toNat / 16777216) ≠ 255#8 := by decide +kernel
      exact this h1.1
    · have h1 : ((head d).take j ++ blank (12 - j)).take 4 = toLe (crc32 crcInit (toLe (BitVec.ofNat 32 d.length))) := by
        rw [List.take_append_of_le_length (by rw [List.length_take, head_length]; omega), List.take_take, show min 4 j = 4 by omega, head,
          List.append_assoc, List.take_left' (toLe_length _)]
      rw [h, List.append_assoc, List.take_left' (toLe_length _)] at h1
      have h2 := toLe_inj h1
      refine ⟨h2, ?_⟩
      rw [hab] at h2
      exact toLe_inj (crc32_inj _ _ _ rfl (by rw [toLe_length]; omega) h2)
  · exact .inl hab

/-- Interrupted while writing a block behind the blocks of `ds`. -/
theorem crash_block (ht : Tail tail) (hd : ∀ x ∈ ds, x.length < 2 ^ 32) (hlen : d.length < 2 ^ 32) {k : Nat} (hk : 12 + d.length ≤ k) :
    Crash sec (ds.flatMap block ++ blank k ++ tail) (progs (used ds + 12) d ++ progs (used ds) (head d))
      (fun m => loadDoc m = .ok ds.getLast? ∨ loadDoc m = .ok (some d)) := by
  have hu : used ds = (ds.flatMap block).length := rfl
  have hdata : ∀ x : List Byte, 12 + x.length ≤ k → exec sec (ds.flatMap block ++ blank k ++ tail) (progs (used ds + 12) x) =
      .ok (ds.flatMap block ++ blank 12 ++ x ++ (blank (k - 12 - x.length) ++ tail)) := by
    intro x hx
    have := exec_progs' sec (ds.flatMap block ++ blank 12) x tail (k := k - 12) (a := used ds + 12)
      (by rw [List.length_append, blank_length]; rfl) (by omega)
    rw [show ds.flatMap block ++ blank 12 ++ blank (k - 12) ++ tail = ds.flatMap block ++ blank k ++ tail by
      rw [show k = 12 + (k - 12) by omega, blank_add]; simp] at this
    rw [this]; simp only [List.append_assoc]
  have hq : Quiet (blank 8) := by
    have := ht.2 0 (by omega)
    simpa using this
  refine crash_append ?_ (hdata d hk) ?_
  · intro j
    rw [progs_take]
    refine ⟨_, hdata (d.take j) (by rw [List.length_take]; omega), .inl ?_⟩
    have e : ds.flatMap block ++ blank 12 ++ d.take j ++ (blank (k - 12 - (d.take j).length) ++ tail) =
        ds.flatMap block ++ (blank 8 ++ (blank 4 ++ d.take j ++ (blank (k - 12 - (d.take j).length) ++ tail))) := by
      rw [show blank 12 = blank 8 ++ blank 4 from rfl]; simp only [List.append_assoc]
    rw [e]
    refine loadDoc_stop hd ?_
    rw [← List.append_assoc]
    exact isValid_quiet _ _ _ rfl (blank_length 8) hq
  · intro j
    rw [progs_take]
    generalize hR : blank (k - 12 - d.length) ++ tail = R
    have hex := exec_progs' sec (ds.flatMap block) ((head d).take j) (d ++ R) (k := 12) (a := used ds) rfl
      (by rw [List.length_take, head_length]; omega)
    rw [show ds.flatMap block ++ blank 12 ++ (d ++ R) = ds.flatMap block ++ blank 12 ++ d ++ R by simp only [List.append_assoc]] at hex
    refine ⟨_, hex, ?_⟩
    have hsub : 12 - ((head d).take j).length = 12 - j := by rw [List.length_take, head_length]; omega
    rw [hsub]
    generalize hw : (head d).take j ++ blank (12 - j) = w
    have hwl : w.length = 12 := by rw [← hw, List.length_append, blank_length, List.length_take, head_length]; omega
    obtain ⟨a, b, c, habc⟩ : ∃ a b c, w = toLe a ++ toLe b ++ toLe c := by
      refine ⟨fromLe (w.take 4), fromLe ((w.drop 4).take 4), fromLe (w.drop 8), ?_⟩
      rw [toLe_fromLe (by rw [List.length_take]; omega), toLe_fromLe (by rw [List.length_take, List.length_drop]; omega),
        toLe_fromLe (by rw [List.length_drop]; omega)]
      have h1 := List.take_append_drop 4 w
      have h2 := List.take_append_drop 4 (w.drop 4)
      rw [List.drop_drop] at h2
      rw [List.append_assoc, h2, h1]
    have em : ds.flatMap block ++ (head d).take j ++ blank (12 - j) ++ (d ++ R) = ds.flatMap block ++ (toLe a ++ toLe b ++ toLe c ++ d ++ R) := by
      rw [List.append_assoc (ds.flatMap block), hw, habc]; simp only [List.append_assoc]
    rw [em]
    rcases head_prefix d j a b c (hw.trans habc) with hne | ⟨ha, hb⟩
    · left
      refine loadDoc_stop hd ?_
      have := isValid_quiet (ds.flatMap block) (toLe a ++ toLe b) (toLe c ++ d ++ R) rfl rfl (by
        intro a' b' h
        have h1 := congrArg (List.take 4) h
        have h2 := congrArg (List.drop 4) h
        rw [List.take_left' (toLe_length _), List.take_left' (toLe_length _)] at h1
        rw [List.drop_left' (toLe_length _), List.drop_left' (toLe_length _)] at h2
        rw [← toLe_inj h1, ← toLe_inj h2]; exact hne)
      rw [← this]; simp only [List.append_assoc]; rfl
    · have hv := isValid_len (ds.flatMap block) d R c rfl hlen
      rw [← ha, ← hb] at hv
      by_cases hc : c = crc32 crcInit d
      · right
        have e2 : ds.flatMap block ++ (toLe a ++ toLe b ++ toLe c ++ d ++ R) = (ds ++ [d]).flatMap block ++ blank (k - 12 - d.length) ++ tail := by
          rw [ha, hb, hc, List.flatMap_append, ← hR]
          simp only [List.flatMap_cons, List.flatMap_nil, List.append_nil, block, head, List.append_assoc]
        rw [e2]
        have := load_stored (n := ((ds ++ [d]).flatMap block).length + (k - 12 - d.length)) (tail := tail) ht
          ⟨by intro x hx; rcases List.mem_append.mp hx with h | h
              · exact hd x h
              · rw [List.mem_singleton.mp h]; exact hlen, _, rfl, rfl⟩
        rw [this]; simp
      · left
        refine loadDoc_stop hd ?_
        rw [show used ds = (ds.flatMap block).length from rfl]
        rw [show (c == crc32 crcInit d) = false by simpa using hc] at hv
        rw [← hv]; simp only [List.append_assoc]

/-- Power loss at any byte of a save: a following load finds the last document or the new one, both complete, and nothing only if
the sector had to be erased. Interrupted erases and bytes programmed in part are not modelled. Missing with respect to the claim:
odd lengths, and that the older document survives when the sector is erased (`erase_loses_all`). -/
theorem crash_safe_partial (hs : InSector n sec tail) (ht : Tail tail) (h : Stored n tail m ds) (hser : Serialises n ser d) (hne : d ≠ [])
    (heven : d.length % 2 = 0) (hfit : 12 + d.length ≤ n) (hlen : d.length < 2 ^ 32) {f : Nat} {s : St}
    (hrun : save sec n ser (f + 2) ⟨m, []⟩ = .ok s) (j : Nat) :
    ∃ m', exec sec m (s.evs.take j) = .ok m' ∧ (loadDoc m' = .ok ds.getLast? ∨ loadDoc m' = .ok (some d) ∨
      (n < used ds + 12 + d.length ∧ loadDoc m' = .ok none)) := by
  obtain ⟨s', h1, _, h3⟩ := save_events hs ht h hser hne heven hfit hlen f
  rw [hrun] at h1
  injection h1 with h1
  subst h1
  have hload := load_stored ht h
  obtain ⟨hd, k, rfl, hk⟩ := h
  have hu : used ds = (ds.flatMap block).length := rfl
  have hempty : loadDoc (blank n ++ tail) = .ok none := load_stored ht stored_empty
  rcases h3 with ⟨hr, he⟩ | ⟨hr, x, e, hx, he', he⟩
  · have hc := crash_block (sec := sec) ht hd hlen (k := k) (d := d) (by omega)
    suffices hgoal : Crash sec (ds.flatMap block ++ blank k ++ tail) s.evs (fun m => loadDoc m = .ok ds.getLast? ∨ loadDoc m = .ok (some d)) by
      obtain ⟨m', g1, g2⟩ := hgoal j
      exact ⟨m', g1, g2.elim .inl (fun h => .inr (.inl h))⟩
    rw [he]
    by_cases hds : ds = []
    · subst hds
      have hkn : k = n := by simpa using hk
      subst hkn
      have hpre : exec sec ([].flatMap block ++ blank k ++ tail) (pre []) = .ok ([].flatMap block ++ blank k ++ tail) := by
        have := exec_erase (X := blank k) hs (blank_length k)
        simpa [pre] using this
      refine crash_append ?_ hpre hc
      intro j
      rcases j with _ | j
      · exact ⟨_, rfl, .inl (by simpa using hempty)⟩
      · refine ⟨_, ?_, .inl (show loadDoc ([].flatMap block ++ blank k ++ tail) = _ by simpa using hempty)⟩
        rw [List.take_of_length_le (by simp [pre])]; exact hpre
    · rw [show pre ds = [] by rw [pre, if_neg hds], List.nil_append]
      exact hc
  · suffices hgoal : Crash sec (ds.flatMap block ++ blank k ++ tail) s.evs
        (fun m => loadDoc m = .ok ds.getLast? ∨ loadDoc m = .ok (some d) ∨ (n < used ds + 12 + d.length ∧ loadDoc m = .ok none)) from hgoal j
    have hbad : n < used ds + 12 + d.length := by omega
    rw [he]
    have hdata : ∀ j, ∃ X, X.length = n ∧ exec sec (ds.flatMap block ++ blank k ++ tail) (progs (used ds + 12) (x.take j)) = .ok (X ++ tail) ∧
        loadDoc (X ++ tail) = .ok ds.getLast? := by
      intro j
      rcases hx with rfl | hx
      · refine ⟨ds.flatMap block ++ blank k, by rw [List.length_append, blank_length]; exact hk, by simp [progs, exec], hload⟩
      · have hxl : (x.take j).length ≤ x.length := by rw [List.length_take]; omega
        have := exec_progs' sec (ds.flatMap block ++ blank 12) (x.take j) tail (k := k - 12) (a := used ds + 12)
          (by rw [List.length_append, blank_length]; rfl) (by omega)
        rw [show ds.flatMap block ++ blank 12 ++ blank (k - 12) ++ tail = ds.flatMap block ++ blank k ++ tail by
          rw [show k = 12 + (k - 12) by omega, blank_add]; simp] at this
        refine ⟨ds.flatMap block ++ blank 12 ++ x.take j ++ blank (k - 12 - (x.take j).length), ?_, this, ?_⟩
        · simp only [List.length_append, blank_length]; omega
        · have e2 : ds.flatMap block ++ blank 12 ++ x.take j ++ blank (k - 12 - (x.take j).length) ++ tail =
              ds.flatMap block ++ (blank 8 ++ (blank 4 ++ x.take j ++ blank (k - 12 - (x.take j).length) ++ tail)) := by
            rw [show blank 12 = blank 8 ++ blank 4 from rfl]; simp only [List.append_assoc]
          rw [e2]
          refine loadDoc_stop hd ?_
          rw [← List.append_assoc]
          exact isValid_quiet _ _ _ rfl (blank_length 8) (by simpa using ht.2 0 (by omega))
    obtain ⟨X, x1, x2, x3⟩ := hdata x.length
    rw [List.take_length] at x2
    have herase : ∀ (Y : List Byte), Y.length = n → exec sec (Y ++ tail) e = .ok (blank n ++ tail) := by
      intro Y hY
      have g1 := exec_erase (X := Y) hs hY
      have g2 := exec_erase (X := blank n) hs (blank_length n)
      rcases he' with rfl | rfl
      · exact g1
      · rw [show [Ev.erase, Ev.erase] = [.erase] ++ [.erase] from rfl, exec_append, g1]; exact g2
    refine crash_append ?_ x2 (crash_append ?_ (herase X x1) ?_)
    · intro j
      obtain ⟨X, _, x2, x3⟩ := hdata j
      rw [progs_take]
      exact ⟨_, x2, .inl x3⟩
    · intro j
      have g1 := exec_erase (X := X) hs x1
      rcases j with _ | _ | j
      · exact ⟨_, rfl, .inl x3⟩
      · refine ⟨_, ?_, .inr (.inr ⟨hbad, hempty⟩)⟩
        rcases he' with rfl | rfl <;> exact g1
      · refine ⟨_, ?_, .inr (.inr ⟨hbad, hempty⟩)⟩
        rw [List.take_of_length_le (by rcases he' with rfl | rfl <;> simp)]
        exact herase X x1
    · have hc := crash_block (sec := sec) (ds := []) ht (by simp) hlen (k := n) (d := d) (by omega)
      intro j
      obtain ⟨m', g1, g2⟩ := hc j
      refine ⟨m', by simpa [used] using g1, ?_⟩
      rcases g2 with g2 | g2
      · exact .inr (.inr ⟨hbad, by simpa using g2⟩)
      · exact .inr (.inl g2)

/-! ## Documents of odd length -/

/-- Writing a document of odd length on erased flash: the block gets an erased byte at its end, and the first byte *behind* the
block is cleared. -/
theorem write_odd (sec : Nat) (A d B : List Byte) {k : Nat} (hk : 12 + d.length + 2 ≤ k) (evs : List Ev) (hodd : d.length % 2 = 1) :
    (do
      let s ← St.emit sec ⟨A ++ blank k ++ B, evs⟩ (progs (A.length + header) d)
      finish sec s A.length d.length : Except Err St) =
    .ok ⟨A ++ block (d ++ [0xFF#8]) ++ [0x00#8] ++ blank (k - 12 - d.length - 2) ++ B,
      evs ++ (progs (A.length + 12) d ++ [.prog (A.length + 12 + d.length + 1) 0x00#8] ++ progs A.length (head (d ++ [0xFF#8])))⟩ := by
  have e1 : exec sec (A ++ blank k ++ B) (progs (A.length + header) d) =
      .ok (A ++ blank 12 ++ d ++ blank (k - 12 - d.length) ++ B) := by
    have := exec_progs' sec (A ++ blank 12) d B (k := k - 12) (a := A.length + header)
      (by rw [List.length_append, blank_length]; rfl) (by omega)
    rw [show A ++ blank 12 ++ blank (k - 12) ++ B = A ++ blank k ++ B by
      rw [show k = 12 + (k - 12) by omega, blank_add]; simp] at this
    rw [this]
  have e2 : exec sec (A ++ blank 12 ++ d ++ blank (k - 12 - d.length) ++ B) (progs (A.length + d.length + header + 1) [0x00#8]) =
      .ok (A ++ blank 12 ++ (d ++ [0xFF#8]) ++ ([0x00#8] ++ blank (k - 12 - d.length - 2) ++ B)) := by
    have := exec_progs' sec (A ++ blank 12 ++ d ++ blank 1) [0x00#8] B (k := k - 12 - d.length - 1) (a := A.length + d.length + header + 1)
      (by simp only [List.length_append, blank_length, header]; omega) (by simp only [List.length_singleton]; omega)
    rw [show A ++ blank 12 ++ d ++ blank 1 ++ blank (k - 12 - d.length - 1) ++ B = A ++ blank 12 ++ d ++ blank (k - 12 - d.length) ++ B by
      rw [show k - 12 - d.length = 1 + (k - 12 - d.length - 1) by omega, blank_add, show 1 + (k - 12 - d.length - 1) - 1 = k - 12 - d.length - 1 by omega]
      simp only [List.append_assoc]] at this
    rw [this]
    simp only [List.append_assoc, show blank 1 = [0xFF#8] from rfl, List.length_singleton]
    rw [show k - 12 - d.length - 1 - 1 = k - 12 - d.length - 2 by omega]
  have hwh := writeHeader_spec sec A (d ++ [0xFF#8]) ([0x00#8] ++ blank (k - 12 - d.length - 2) ++ B)
    (evs ++ progs (A.length + header) d ++ progs (A.length + d.length + header + 1) [0x00#8]) rfl
  rw [List.length_append, List.length_singleton] at hwh
  simp only [St.emit, e1, bind, Except.bind, pure, Except.pure, finish, if_pos hodd, e2, hwh]
  simp only [List.append_assoc, progs, header]
  rw [show A.length + d.length + 12 + 1 = A.length + 12 + d.length + 1 by omega]

/-- The region after a document of odd length: its first free byte is not erased any more. -/
def Stained (n : Nat) (tail : List Byte) (m : Flash) (ds : List (List Byte)) : Prop :=
  (∀ d ∈ ds, d.length < 2 ^ 32) ∧ ds ≠ [] ∧ ∃ k, m = ds.flatMap block ++ [0x00#8] ++ blank k ++ tail ∧ used ds + 1 + k = n ∧ 8 ≤ k

theorem quiet_stain : Quiet ([0x00#8] ++ blank 7) := by
  intro a b h
  have h1 := congrArg (List.take 4) h
  have h2 := congrArg (List.drop 4) h
  rw [List.take_left' (toLe_length _)] at h1
  rw [List.drop_left' (toLe_length _)] at h2
  have ha : a = fromLe [0x00#8, 0xFF#8, 0xFF#8, 0xFF#8] := by rw [← fromLe_toLe a, ← h1]; rfl
  have hb : b = fromLe [0xFF#8, 0xFF#8, 0xFF#8, 0xFF#8] := by rw [← fromLe_toLe b, ← h2]; rfl
  subst ha hb
  decide +kernel

theorem load_stained (h : Stained n tail m ds) : loadDoc m = .ok ds.getLast? ∧ findFirstFree (m.length + 1) m 0 = .ok (used ds) := by
  obtain ⟨hd, _, k, rfl, _, hk⟩ := h
  have e : ds.flatMap block ++ [0x00#8] ++ blank k ++ tail = ds.flatMap block ++ (([0x00#8] ++ blank 7) ++ (blank (k - 7) ++ tail)) := by
    rw [show k = 7 + (k - 7) by omega, blank_add, show 7 + (k - 7) - 7 = k - 7 by omega]; simp only [List.append_assoc]
  have hv := isValid_quiet (ds.flatMap block) ([0x00#8] ++ blank 7) (blank (k - 7) ++ tail) (p := used ds) rfl rfl quiet_stain
  rw [List.append_assoc] at hv
  rw [e]
  exact ⟨loadDoc_stop hd hv, (walk_stop hd hv).2⟩

/-- Loading right after saving a document of odd length works; the document is followed by an erased byte. -/
theorem odd_save_loads (hs : InSector n sec tail) (ht : Tail tail) (h : Stored n tail m ds) (hr : used ds + 12 + d.length + 10 ≤ n)
    (hser : ser (n - used ds - 12) = (d, true)) (hodd : d.length % 2 = 1) (hlen : d.length + 1 < 2 ^ 32) (f : Nat) :
    ∃ s, save sec n ser (f + 1) ⟨m, []⟩ = .ok s ∧ Stained n tail s.m (ds ++ [d ++ [0xFF#8]]) ∧ loadDoc s.m = .ok (some (d ++ [0xFF#8])) := by
  obtain ⟨h1, h2⟩ := prepare_spec hs ht h []
  have h3 := place_room (sec := sec) (n := n) h2 (by omega) ([] ++ pre ds)
  obtain ⟨hd, k, rfl, hk⟩ := h
  have hu : used ds = (ds.flatMap block).length := rfl
  have h4 := write_odd sec (ds.flatMap block) d tail (k := k) (by omega) ([] ++ pre ds) hodd
  have hst : Stained n tail (ds.flatMap block ++ block (d ++ [0xFF#8]) ++ [0x00#8] ++ blank (k - 12 - d.length - 2) ++ tail)
      (ds ++ [d ++ [0xFF#8]]) := by
    refine ⟨?_, by simp, k - 12 - d.length - 2, ?_, ?_, by omega⟩
    · intro x hx
      rcases List.mem_append.mp hx with h | h
      · exact hd x h
      · rw [List.mem_singleton.mp h, List.length_append, List.length_singleton]; exact hlen
    · rw [List.flatMap_append]; simp only [List.flatMap_cons, List.flatMap_nil, List.append_nil]
    · rw [used, List.flatMap_append, List.length_append]
      simp only [List.flatMap_cons, List.flatMap_nil, List.append_nil, block_length, List.length_append, List.length_singleton]
      omega
  refine ⟨⟨ds.flatMap block ++ block (d ++ [0xFF#8]) ++ [0x00#8] ++ blank (k - 12 - d.length - 2) ++ tail,
    [] ++ pre ds ++ (progs ((ds.flatMap block).length + 12) d ++ [.prog ((ds.flatMap block).length + 12 + d.length + 1) 0x00#8] ++
      progs (ds.flatMap block).length (head (d ++ [0xFF#8])))⟩, ?_, hst, by rw [(load_stained hst).1]; simp⟩
  rw [save, h1]
  simp only [bind, Except.bind] at h4 ⊢
  rw [h3]
  simp only [show n - used ds - header = n - used ds - 12 from rfl, hser]
  simp only [show (true == false) = false from rfl, Bool.false_eq_true, if_false, hu]
  rw [h4]

/-- Clearing bits of a cleared byte. -/
theorem exec_progs_stain (sec : Nat) (A B : List Byte) (x : Byte) (d : List Byte) :
    exec sec (A ++ [0x00#8] ++ blank d.length ++ B) (progs A.length (x :: d)) = .ok (A ++ ([0x00#8] ++ d) ++ B) := by
  have e : A ++ [0x00#8] ++ blank d.length ++ B = A ++ 0x00#8 :: (blank d.length ++ B) := by simp
  rw [e]
  simp only [progs, exec, Ev.apply, bind, Except.bind]
  rw [dif_pos (by simp)]
  simp only [List.getElem_append_right (Nat.le_refl _), Nat.sub_self, List.getElem_cons_zero, List.set_append_right _ _ (Nat.le_refl _),
    List.set_cons_zero, BitVec.zero_and]
  have := exec_progs sec d (A ++ [0x00#8]) B
  rw [List.length_append, List.length_singleton] at this
  rw [show A ++ 0#8 :: (blank d.length ++ B) = A ++ [0x00#8] ++ blank d.length ++ B by simp, this]
  simp

/-- After a document of odd length, the next one (even length, fits) is not found: a load still gives the odd one, unless the
checksum of its length ends in a zero byte. So C24 is false. -/
theorem odd_save_loses_next (ht : Tail tail) (h : Stained n tail m ds) (hr : used ds + 12 + d.length ≤ n) (hne : d ≠ [])
    (hser : ser (n - used ds - 12) = (d, true)) (heven : d.length % 2 = 0) (hlen : d.length < 2 ^ 32)
    (hcrc : (crc32 crcInit (toLe (BitVec.ofNat 32 d.length))).toNat % 256 ≠ 0) (f : Nat) :
    ∃ s, save sec n ser (f + 1) ⟨m, []⟩ = .ok s ∧ loadDoc s.m = .ok ds.getLast? := by
  have hdl := List.length_pos_iff.mpr hne
  obtain ⟨hl, h2⟩ := load_stained h
  obtain ⟨hd, hds, k, rfl, hk, hk8⟩ := h
  have hu : used ds = (ds.flatMap block).length := rfl
  generalize hM : ds.flatMap block ++ [0x00#8] ++ blank k ++ tail = M at *
  have h1 : prepare sec ⟨M, []⟩ = .ok ⟨M, []⟩ := by
    have e : M = ds.flatMap block ++ (([0x00#8] ++ blank 7) ++ (blank (k - 7) ++ tail)) := by
      rw [← hM, show k = 7 + (k - 7) by omega, blank_add, show 7 + (k - 7) - 7 = k - 7 by omega]; simp only [List.append_assoc]
    have hv := isValid_quiet (ds.flatMap block) ([0x00#8] ++ blank 7) (blank (k - 7) ++ tail) (p := used ds) rfl rfl quiet_stain
    rw [List.append_assoc, ← e] at hv
    have hw := (walk_stop (R := ([0x00#8] ++ blank 7) ++ (blank (k - 7) ++ tail)) hd (by rw [← e]; exact hv)).1
    rw [← e] at hw
    obtain ⟨x, hx⟩ : ∃ x, ds.getLast? = some x := ⟨_, List.getLast?_eq_some_getLast hds⟩
    rw [hx] at hw
    simp only [prepare, hw, bind, Except.bind, Option.map_some, pure, Except.pure]
  have h3 := place_room (sec := sec) (n := n) h2 (by omega) []
  -- the data
  have e1 : exec sec M (progs (used ds + header) d) =
      .ok (ds.flatMap block ++ [0x00#8] ++ blank 11 ++ d ++ (blank (k - 11 - d.length) ++ tail)) := by
    have := exec_progs' sec (ds.flatMap block ++ [0x00#8] ++ blank 11) d tail (k := k - 11) (a := used ds + header)
      (by simp only [List.length_append, blank_length, List.length_singleton]; rfl) (by omega)
    rw [show ds.flatMap block ++ [0x00#8] ++ blank 11 ++ blank (k - 11) ++ tail = M by
      rw [← hM, show k = 11 + (k - 11) by omega, blank_add]; simp only [List.append_assoc]; congr 5; omega] at this
    rw [this]; simp only [List.append_assoc]
  generalize hB : blank (k - 11 - d.length) ++ tail = B at *
  generalize hc : crc32 crcInit (toLe (BitVec.ofNat 32 d.length)) = c at *
  generalize hN : BitVec.ofNat 32 d.length = N at *
  obtain ⟨c0, c', hcl⟩ : ∃ c0 c', toLe c = c0 :: c' ∧ c'.length = 3 := ⟨_, _, rfl, rfl⟩
  have e2 : exec sec (ds.flatMap block ++ [0x00#8] ++ blank 11 ++ d ++ B) (progs (used ds) (toLe c)) =
      .ok (ds.flatMap block ++ ([0x00#8] ++ c') ++ blank 8 ++ (d ++ B)) := by
    rw [hcl.1]
    have := exec_progs_stain sec (ds.flatMap block) (blank 8 ++ (d ++ B)) c0 c'
    rw [hcl.2] at this
    rw [show ds.flatMap block ++ [0x00#8] ++ blank 3 ++ (blank 8 ++ (d ++ B)) = ds.flatMap block ++ [0x00#8] ++ blank 11 ++ d ++ B by
      rw [show blank 11 = blank 3 ++ blank 8 from rfl]; simp only [List.append_assoc]] at this
    rw [hu, this]; simp only [List.append_assoc]
  have e3 : exec sec (ds.flatMap block ++ ([0x00#8] ++ c') ++ blank 8 ++ (d ++ B)) (progs (used ds + 4) (toLe N)) =
      .ok (ds.flatMap block ++ ([0x00#8] ++ c') ++ toLe N ++ blank 4 ++ (d ++ B)) := by
    have := exec_progs' sec (ds.flatMap block ++ ([0x00#8] ++ c')) (toLe N) (d ++ B) (k := 8) (a := used ds + 4)
      (by simp only [List.length_append, List.length_singleton, hcl.2, hu]) (by rw [toLe_length]; omega)
    rw [toLe_length] at this
    exact this
  have e4 : slice (ds.flatMap block ++ ([0x00#8] ++ c') ++ toLe N ++ blank 4 ++ (d ++ B)) (used ds + header) d.length = .ok d := by
    rw [← slice_at (ds.flatMap block ++ ([0x00#8] ++ c') ++ toLe N ++ blank 4) d B (p := used ds + header) (n := d.length) _ rfl]
    · simp only [List.append_assoc]
    · simp only [List.length_append, toLe_length, blank_length, header, List.length_singleton, hcl.2, hu]
  have e5 : exec sec (ds.flatMap block ++ ([0x00#8] ++ c') ++ toLe N ++ blank 4 ++ (d ++ B)) (progs (used ds + 8) (toLe (crc32 crcInit d))) =
      .ok (ds.flatMap block ++ ([0x00#8] ++ c') ++ toLe N ++ toLe (crc32 crcInit d) ++ blank 0 ++ (d ++ B)) := by
    have := exec_progs' sec (ds.flatMap block ++ ([0x00#8] ++ c') ++ toLe N) (toLe (crc32 crcInit d)) (d ++ B) (k := 4) (a := used ds + 8)
      (by simp only [List.length_append, toLe_length, List.length_singleton, hcl.2, hu]) (by rw [toLe_length]; omega)
    rw [toLe_length] at this
    exact this
  refine ⟨⟨ds.flatMap block ++ ([0x00#8] ++ c') ++ toLe N ++ toLe (crc32 crcInit d) ++ blank 0 ++ (d ++ B),
    progs (used ds + header) d ++ progs (used ds) (toLe c) ++ progs (used ds + 4) (toLe N) ++ progs (used ds + 8) (toLe (crc32 crcInit d))⟩,
    ?_, ?_⟩
  · rw [save, h1]
    simp only [bind, Except.bind]
    rw [h3]
    simp only [show n - used ds - header = n - used ds - 12 from rfl, hser]
    simp only [show (true == false) = false from rfl, Bool.false_eq_true, if_false, St.emit, e1, bind, Except.bind, pure, Except.pure, finish,
      show ¬(d.length % 2 = 1) by omega, writeHeader, hN, hc, e2, e3, e4, e5, List.nil_append]
  · have e6 : ds.flatMap block ++ ([0x00#8] ++ c') ++ toLe N ++ toLe (crc32 crcInit d) ++ blank 0 ++ (d ++ B) =
        ds.flatMap block ++ ((([0x00#8] ++ c') ++ toLe N) ++ (toLe (crc32 crcInit d) ++ blank 0 ++ (d ++ B))) := by
      simp only [List.append_assoc]
    rw [e6]
    refine loadDoc_stop hd ?_
    rw [← List.append_assoc]
    refine isValid_quiet _ _ _ rfl (by simp only [List.length_append, List.length_singleton, hcl.2, toLe_length]) ?_
    intro a b hab
    have g1 := congrArg (List.take 4) hab
    have g2 := congrArg (List.drop 4) hab
    rw [List.take_left' (toLe_length _), List.take_left' (by rw [List.length_append, List.length_singleton, hcl.2])] at g1
    rw [List.drop_left' (toLe_length _), List.drop_left' (by rw [List.length_append, List.length_singleton, hcl.2])] at g2
    have := toLe_inj g2
    subst this
    rw [hc]
    intro hac
    subst hac
    simp only [toLe, List.cons_append, List.nil_append, List.cons.injEq] at g1
    have := congrArg BitVec.toNat g1.1
    simp only [BitVec.toNat_ofNat] at this
    omega

/-- A tree that does not fit even in the erased region is saved again and again: the recursion has no end. -/
theorem too_large_never_ends (hs : InSector n sec tail) (ht : Tail tail) (hn : 12 < n) (hfail : (ser (n - 12)).2 = false)
    (hlen : (ser (n - 12)).1.length ≤ n - 12) : ∀ (f : Nat) (evs : List Ev), save sec n ser f ⟨blank n ++ tail, evs⟩ = .error .fuel := by
  intro f
  induction f with
  | zero => intro evs; rfl
  | succ f ih =>
    intro evs
    have h0 : used ([] : List (List Byte)) = 0 := rfl
    rw [save_retry (ds := []) (x := (ser (n - 12)).1) hs ht stored_empty (by rw [h0]; omega) (by rw [h0, ← hfail]; rfl) (by rw [h0]; exact hlen)]
    exact ih _

end

/-! ## Examples and witnesses -/

/-- Erased flash behind the region. -/
theorem tail_blank (rest : List Byte) : Tail (blank 12 ++ rest) := by
  refine ⟨by rw [List.length_append, blank_length]; omega, ?_⟩
  intro j hj a b h
  rw [List.take_append_of_le_length (by rw [blank_length]; omega)] at h
  simp only [blank, List.take_replicate, List.replicate_append_replicate] at h
  rw [show 8 - j + min j 12 = 8 by omega] at h
  have h1 := congrArg (List.take 4) h
  have h2 := congrArg (List.drop 4) h
  rw [List.take_left' (toLe_length _)] at h1
  rw [List.drop_left' (toLe_length _)] at h2
  have ha : a = fromLe [0xFF#8, 0xFF#8, 0xFF#8, 0xFF#8] := by rw [← fromLe_toLe a, ← h1]; rfl
  have hb : b = fromLe [0xFF#8, 0xFF#8, 0xFF#8, 0xFF#8] := by rw [← fromLe_toLe b, ← h2]; rfl
  subst ha hb
  decide +kernel

/-- A serialiser of the document `d` that writes what fits. -/
def simple (d : List Byte) : Nat → List Byte × Bool := fun r => if d.length ≤ r then (d, true) else (d.take r, false)

theorem simple_serialises (n : Nat) (d : List Byte) : Serialises n (simple d) d :=
  ⟨fun r _ h => by simp [simple, h], fun r _ _ h => by
    rw [simple, if_neg (by omega)]
    exact ⟨rfl, by rw [List.length_take]; omega⟩⟩

/-- A region of 40 bytes. Three saves of even length: the first two fit together, the third one erases. -/
example : (match saves 40 40 [simple [1, 2, 3, 4], simple [5, 6], simple [7, 8]] (blank 40 ++ blank 12) with
    | .ok m => (match loadDoc m with
      | .ok (some d) => d == [7, 8] && m.take 14 == block [7, 8]
      | _ => false)
    | _ => false : Bool) = true := by decide +kernel

/-- The hypotheses of `load_last_save_partial` and `crash_safe_partial` hold for the same saves. -/
example : InSector 40 40 (blank 12) ∧ Tail (blank 12 ++ []) ∧ Stored 40 (blank 12) (blank 40 ++ blank 12) [] ∧
    Stored 40 (blank 12) ((block [1, 2, 3, 4] ++ blank 24) ++ blank 12) [[1, 2, 3, 4]] ∧
    Serialises 40 (simple [1, 2, 3, 4]) [1, 2, 3, 4] :=
  ⟨⟨by omega, blank 12, rfl⟩, tail_blank [], stored_empty, ⟨by simp, 24, by simp, by simp [block_length]⟩, simple_serialises _ _⟩

/-- `odd_save_loses_next` on bytes: a document of one byte, then one of two; the load gives the first. -/
theorem second_save_lost : (match saves 64 64 [simple [1], simple [2, 3]] (blank 64 ++ blank 12) with
    | .ok m => (match loadDoc m with
      | .ok (some d) => d == [1, 0xFF]
      | _ => false)
    | _ => false : Bool) = true := by decide +kernel

/-- A document of odd length that fills the region: two bytes behind it are programmed. -/
theorem odd_save_leaves_region : (match save 15 15 (simple [1, 2, 3]) 2 ⟨blank 15 ++ blank 12, []⟩ with
    | .ok s => s.evs.contains (.prog 16 0x00#8)
    | _ => false : Bool) = true := by decide +kernel

/-- Power loss after the erase: the older document is lost, the new one not yet there. -/
theorem erase_loses_all : (match save 30 30 (simple [5, 6, 7, 8]) 2 ⟨block [1, 2, 3, 4] ++ blank 14 ++ blank 12, []⟩ with
    | .ok s => (match exec 30 (block [1, 2, 3, 4] ++ blank 14 ++ blank 12) (s.evs.take 5) with
      | .ok m => (match loadDoc m with
        | .ok none => true
        | _ => false)
      | _ => false)
    | _ => false : Bool) = true := by decide +kernel

/-- Power loss while writing [0xF0, 0xF0], restart, save of [0x0F, 0x0F, 1, 1]: the load gives a document that was never saved. -/
theorem save_after_crash_corrupts : (match save 64 64 (simple [0xF0, 0xF0]) 2 ⟨block [1, 2] ++ blank 50 ++ blank 12, []⟩ with
    | .ok s => (match exec 64 (block [1, 2] ++ blank 50 ++ blank 12) (s.evs.take 2) with
      | .ok m => (match save 64 64 (simple [0x0F, 0x0F, 1, 1]) 2 ⟨m, []⟩ with
        | .ok s => (match loadDoc s.m with
          | .ok (some d) => d == [0, 0, 1, 1]
          | _ => false)
        | _ => false)
      | _ => false)
    | _ => false : Bool) = true := by decide +kernel

end Verif.Flash
