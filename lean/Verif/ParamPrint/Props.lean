import Verif.ParamPrint.Model
import Verif.ParamServer.Props

/-!
# Properties of printing parameters (C134)
-/

namespace Verif.ParamPrint

open Verif.Param Verif.ParamServer HeapList

/-! ## Specification: reading such a text -/

def newline : Nat := 10
def space : Nat := 32
def colon : Nat := 58

/-- The lines of a text, each ended by a newline. -/
def splitLines : Str → List Str
  | [] => []
  | c :: t => if c = newline then [] :: splitLines t
    else match splitLines t with
      | [] => [[c]]
      | q :: qs => (c :: q) :: qs

/-- The reader: two spaces for each level; a key that is followed by nothing opens a level, any other has the value behind `": "`. -/
def readLines : List Str → List Str → List (List Str × Str)
  | [], _ => []
  | line :: ls, stack =>
    let level := (line.takeWhile (· = space)).length / 2
    let body := line.dropWhile (· = space)
    let path := stack.take level ++ [body.takeWhile (· ≠ colon)]
    match (body.dropWhile (· ≠ colon)).drop 1 with
    | [] => readLines ls path
    | rest => (path, rest.drop 1) :: readLines ls stack

/-- The keys and the texts of the values in a text. -/
def read (s : Str) : List (List Str × Str) := readLines (splitLines s) []

/-- The text of a value. -/
def valText (fmt : Fmt) (mem : Bool) : Option AVal → Str
  | none => str "~"
  | some (.scalar v) => fmt.f v
  | some (.integer v) => fmt.d v
  | some (.boolean b) => if b then str "true" else str "false"
  | some (.string s) => if mem then str "\"" ++ cStr s ++ str "\"" else str "\"\" # warning: malloc failed during serialization!"
  | some (.vector v) => if mem then str "[" ++ List.intercalate (str ", ") (v.map fmt.f) ++ str "]"
    else str "[] # warning: malloc failed during serialization!"
  | some (.varVector v) => if mem then str "[" ++ List.intercalate (str ", ") (v.map fmt.f) ++ str "]"
    else str "[] # warning: malloc failed during serialization!"

/-- Identifiers and values that a line can hold. -/
structure Readable (fmt : Fmt) (l : List Op) : Prop where
  ns : ∀ n ∈ nss l, parentOf n l ≠ none → newline ∉ nsIdOf n l ∧ colon ∉ nsIdOf n l ∧ (nsIdOf n l).head? ≠ some space
  par : ∀ p ∈ pars l, newline ∉ parIdOf p l ∧ colon ∉ parIdOf p l ∧ (parIdOf p l).head? ≠ some space
  str : ∀ p s, valueOf p l = some (.string s) → newline ∉ s
  f : ∀ x, newline ∉ fmt.f x
  d : ∀ x, newline ∉ fmt.d x

/-! ## What is printed -/

theorem arrayLoop_eq (fmt : Fmt) : ∀ a : List W32, arrayLoop fmt a = List.intercalate (str ", ") (a.map fmt.f)
  | [] => rfl
  | [x] => by simp [arrayLoop, List.intercalate]
  | x :: y :: a => by
    rw [arrayLoop, arrayLoop_eq fmt (y :: a)]
    simp [List.intercalate, List.intersperse]

theorem valuePrint_spec {fuel : Nat} {h0 h : Heap} {l : List Op} (hp : Proper l) (hf : l.length ≤ fuel)
    (hr : run fuel h0 l = .ok h) (fmt : Fmt) (mem : Nat → Bool) {p : Nat} (hm : p ∈ pars l)
    (hbuf : ∀ buf j df, declOf p l = some (.string buf j df) → buf.length < 65535) :
    valuePrint fmt mem h p = .ok (valText fmt (mem p) (valueOf p l) ++ [newline]) := by
  have hi := run_inv' hp hf hr
  have hdef := hi.defined p hm
  obtain ⟨d, hd⟩ := pars_declOf hm
  have hval := hi.val p d hd
  unfold valuePrint
  cases hv : valueOf p l with
  | none =>
    rw [hv] at hdef
    rw [if_pos (by simp [parDefined, hdef])]; rfl
  | some a =>
    rw [hv] at hdef hval
    rw [if_neg (by simp [parDefined, hdef])]
    simp only [Option.isSome_some] at hdef
    cases d <;> cases hx : h.val p <;> rw [hx] at hval <;> simp only [valOK] at hval
    · rw [hval a rfl]; simp [scalarRead, hx, hdef, assert, valText, bind, Except.bind, pure, Except.pure]; rfl
    · rw [hval a rfl]; simp [integerRead, hx, hdef, assert, valText, bind, Except.bind, pure, Except.pure]; rfl
    · rw [hval a rfl]; simp [booleanRead, hx, hdef, assert, valText, bind, Except.bind, pure, Except.pure]; rfl
    · rename_i b k dd buf dim
      obtain ⟨h1, h2, h3, h4⟩ := hval
      rw [h4 a rfl]
      cases hmem : mem p with
      | false => rfl
      | true =>
        simp only [if_true, vectorRead, hx, hdef, assert, copyFrom, if_pos h3, bind, Except.bind, pure, Except.pure, valText, printArray, arrayLoop_eq,
          List.append_assoc]
        rfl
    · rename_i b k dd buf dim
      obtain ⟨h3, h4⟩ := hval.2 a rfl
      rw [h4]
      cases hmem : mem p with
      | false => rfl
      | true =>
        simp only [if_true, varVectorRead, hx, hdef, assert, copyFrom, if_pos h3, bind, Except.bind, pure, Except.pure, valText, printArray, arrayLoop_eq,
          List.append_assoc]
        rfl
    · rename_i b k dd buf len
      obtain ⟨h3, h4⟩ := hval.2 a rfl
      have hb := hbuf _ _ _ hd
      rw [h4]
      cases hmem : mem p with
      | false => rfl
      | true =>
        have e : (buf.length + 1) % 65536 = buf.length + 1 := Nat.mod_eq_of_lt (by omega)
        simp only [if_true, stringRead, hx, hdef, assert, copyFrom, e, if_pos (show len < buf.length + 1 by omega), if_pos h3, bind, Except.bind,
          pure, Except.pure, valText, cStr_append_nul, List.append_assoc]
        rfl

theorem walkPrint_spec {next : Nat → Option Nat} {f : Nat → Except Err Str} {g : Nat → Str} :
    ∀ {ns : List Nat} {fuel : Nat} {p : Option Nat}, (∀ m ∈ ns, f m = .ok (g m)) → IsList next p ns → ns.length ≤ fuel →
    walkPrint next f fuel p = .ok (ns.flatMap g)
  | [], fuel, p, _, hl, _ => by
    simp only [IsList] at hl; subst hl
    cases fuel <;> rfl
  | x :: ns, 0, p, _, _, hf => by simp at hf
  | x :: ns, f' + 1, p, hg, hl, hf => by
    obtain ⟨hx, hl⟩ := hl
    subst hx
    simp only [walkPrint, hg x List.mem_cons_self, List.flatMap_cons]
    rw [walkPrint_spec (fun m hm => hg m (List.mem_cons_of_mem _ hm)) hl (by simpa using hf)]
    rfl

def parLine (fmt : Fmt) (mem : Nat → Bool) (l : List Op) (ind p : Nat) : Str :=
  indent ind ++ parIdOf p l ++ str ": " ++ valText fmt (mem p) (valueOf p l)

def nsLine (l : List Op) (ind m : Nat) : Str := indent ind ++ nsIdOf m l ++ str ":"

/-- The lines for a namespace. -/
def linesOf (fmt : Fmt) (mem : Nat → Bool) (l : List Op) : Nat → Nat → Nat → List Str
  | 0, _, _ => []
  | d + 1, n, ind => (parsIn n l).map (parLine fmt mem l ind) ++
      (subs n l).flatMap fun m => nsLine l ind m :: linesOf fmt mem l d m (ind + 1)

/-- Lines as a text. -/
def unlines (ls : List Str) : Str := ls.flatMap (· ++ [newline])

theorem unlines_append (a b : List Str) : unlines (a ++ b) = unlines a ++ unlines b := by simp [unlines]

theorem unlines_flatMap {α : Type} (g : α → List Str) : ∀ ms : List α, unlines (ms.flatMap g) = ms.flatMap fun m => unlines (g m)
  | [] => rfl
  | m :: ms => by rw [List.flatMap_cons, List.flatMap_cons, unlines_append, unlines_flatMap g ms]

theorem nsPrint_spec {fuel : Nat} {h0 h : Heap} {l : List Op} (hp : Proper l) (hf : l.length ≤ fuel)
    (hr : run fuel h0 l = .ok h) (fmt : Fmt) (mem : Nat → Bool)
    (hbuf : ∀ p buf j df, declOf p l = some (.string buf j df) → buf.length < 65535) :
    ∀ (d n ind : Nat), n ∈ nss l → l.length < d + (chain n l).length →
    nsPrint fmt mem fuel h d n ind = .ok (unlines (linesOf fmt mem l d n ind))
  | 0, n, ind, _, hd => by have := chain_length n l; omega
  | d + 1, n, ind, hn, hd => by
    have ht := (run_inv' hp hf hr).tree
    simp only [nsPrint, linesOf]
    rw [walkPrint_spec (g := fun p => unlines [parLine fmt mem l ind p]) ?_ (ht.plist n hn) (Nat.le_trans (parsIn_length n l) hf)]
    · show (walkPrint _ _ _ _ >>= _) = _
      rw [walkPrint_spec (g := fun m => unlines (nsLine l ind m :: linesOf fmt mem l d m (ind + 1))) ?_ (ht.subs n hn)
        (Nat.le_trans (subs_length n l) hf)]
      · show Except.ok _ = _
        rw [unlines_append, unlines_flatMap]
        congr 2
        induction parsIn n l with
        | nil => rfl
        | cons x xs ih => rw [List.flatMap_cons, ih]; simp [unlines]
      · intro m hm
        rw [nsPrint_spec hp hf hr fmt mem hbuf d m (ind + 1) (subs_nss hm) (by rw [chain_child hp hm, List.length_cons]; omega)]
        show Except.ok _ = _
        rw [ht.nsId m (subs_nss hm)]
        simp [unlines, nsLine, str, newline]
    · intro p hpm
      obtain ⟨h1, -⟩ := (mem_parsIn hp).mp hpm
      unfold entryPrint
      rw [valuePrint_spec hp hf hr fmt mem h1 (hbuf p)]
      show Except.ok _ = _
      rw [ht.parId p h1]
      simp [unlines, parLine]

/-! ## Reading it -/

theorem splitLines_unlines : ∀ {ls : List Str}, (∀ x ∈ ls, newline ∉ x) → splitLines (unlines ls) = ls
  | [], _ => rfl
  | x :: ls, h => by
    have ih := splitLines_unlines (fun y hy => h y (List.mem_cons_of_mem _ hy))
    have hx := h x List.mem_cons_self
    rw [unlines, List.flatMap_cons, List.append_assoc, List.singleton_append]
    clear h
    induction x with
    | nil => rw [List.nil_append, splitLines, if_pos rfl]; exact congrArg _ ih
    | cons c x ihx =>
      rw [List.cons_append, splitLines, if_neg (fun e => hx (by simp [e])), ihx (fun e => hx (List.mem_cons_of_mem _ e))]

theorem indent_takeWhile : ∀ (n : Nat) {s : Str}, s.head? ≠ some space →
    (indent n ++ s).takeWhile (· = space) = indent n ∧ (indent n ++ s).dropWhile (· = space) = s
  | 0, [], _ => ⟨rfl, rfl⟩
  | 0, c :: s, h => by
    have : c ≠ space := fun e => h (by simp [e])
    simp [indent, this]
  | n + 1, s, h => by
    obtain ⟨h1, h2⟩ := indent_takeWhile n h
    have e : indent (n + 1) ++ s = space :: space :: (indent n ++ s) := rfl
    rw [e]
    simp only [List.takeWhile_cons, List.dropWhile_cons, decide_true, if_true, h1, h2]
    exact ⟨rfl, trivial⟩

theorem indent_length (n : Nat) : (indent n).length / 2 = n := by
  have : (indent n).length = 2 * n := by
    induction n with
    | zero => rfl
    | succ n ih => rw [indent, List.length_append, ih]; simp [str]; omega
  omega

theorem indent_newline (n : Nat) : newline ∉ indent n := by
  induction n with
  | zero => simp [indent]
  | succ n ih => rw [indent, List.mem_append]; rintro (h | h); · revert h; decide
                 · exact ih h

theorem takeWhile_key {id : Str} (h : colon ∉ id) (s : Str) :
    (id ++ colon :: s).takeWhile (· ≠ colon) = id ∧ (id ++ colon :: s).dropWhile (· ≠ colon) = colon :: s := by
  induction id with
  | nil => simp
  | cons c id ih =>
    have hc : c ≠ colon := fun e => h (by simp [e])
    obtain ⟨h1, h2⟩ := ih (fun e => h (List.mem_cons_of_mem _ e))
    simp only [List.cons_append, List.takeWhile_cons, List.dropWhile_cons, hc, ne_eq, not_false_eq_true, decide_true, if_true]
    simp only [ne_eq] at h1 h2
    exact ⟨by rw [h1], h2⟩

theorem head_key {id : Str} (h : id.head? ≠ some space) (s : Str) : (id ++ colon :: s).head? ≠ some space := by
  cases id with
  | nil => simp [colon, space]
  | cons c id => simpa using h

/-- A line of a parameter. -/
theorem readLines_par {id : Str} (h1 : colon ∉ id) (h2 : id.head? ≠ some space) (ind : Nat) (v : Str) (ls st : List Str) :
    readLines ((indent ind ++ id ++ str ": " ++ v) :: ls) st = (st.take ind ++ [id], v) :: readLines ls st := by
  have e : indent ind ++ id ++ str ": " ++ v = indent ind ++ (id ++ colon :: (space :: v)) := by simp [str, colon, space]
  obtain ⟨h3, h4⟩ := indent_takeWhile ind (head_key h2 (space :: v))
  obtain ⟨h5, h6⟩ := takeWhile_key h1 (space :: v)
  rw [readLines, e, h3, h4, h5, h6, indent_length]
  rfl

/-- A line of a namespace. -/
theorem readLines_ns {id : Str} (h1 : colon ∉ id) (h2 : id.head? ≠ some space) (ind : Nat) (ls st : List Str) :
    readLines ((indent ind ++ id ++ str ":") :: ls) st = readLines ls (st.take ind ++ [id]) := by
  have e : indent ind ++ id ++ str ":" = indent ind ++ (id ++ colon :: []) := by simp [str, colon]
  obtain ⟨h3, h4⟩ := indent_takeWhile ind (head_key h2 [])
  obtain ⟨h5, h6⟩ := takeWhile_key h1 []
  rw [readLines, e, h3, h4, h5, h6, indent_length]
  rfl

/-- The names from the top of the tree down to a namespace. -/
def names (l : List Op) (n : Nat) : List Str := (chain n l).dropLast.reverse.map (nsIdOf · l)

theorem names_child {l : List Op} (hp : Proper l) {n m : Nat} (hn : n ∈ nss l) (hm : m ∈ subs n l) :
    names l m = names l n ++ [nsIdOf m l] := by
  have hne : chain n l ≠ [] := by rw [chain_unfold hp hn]; simp
  unfold names
  rw [chain_child hp hm, List.dropLast_cons_of_ne_nil hne, List.reverse_cons, List.map_append]
  rfl

theorem readLines_spec {l : List Op} (hp : Proper l) {fmt : Fmt} (hrd : Readable fmt l) (mem : Nat → Bool) :
    ∀ (d n : Nat), n ∈ nss l → ∀ (rest st : List Str), st.take (names l n).length = names l n →
    ∃ st', st'.take (names l n).length = names l n ∧ readLines (linesOf fmt mem l d n (names l n).length ++ rest) st =
      (order l d n).map (fun p => (names l (nsOf p l) ++ [parIdOf p l], valText fmt (mem p) (valueOf p l))) ++ readLines rest st'
  | 0, n, _, rest, st, hst => ⟨st, hst, rfl⟩
  | d + 1, n, hn, rest, st, hst => by
    simp only [linesOf, order]
    have hpars : ∀ ps : List Nat, (∀ p ∈ ps, p ∈ pars l ∧ nsOf p l = n) → ∀ tail,
        readLines (ps.map (parLine fmt mem l (names l n).length) ++ tail) st =
          ps.map (fun p => (names l (nsOf p l) ++ [parIdOf p l], valText fmt (mem p) (valueOf p l))) ++ readLines tail st := by
      intro ps
      induction ps with
      | nil => intro _ tail; rfl
      | cons p ps ih =>
        intro hps tail
        obtain ⟨h1, h2⟩ := hps p List.mem_cons_self
        obtain ⟨-, h4, h5⟩ := hrd.par p h1
        rw [List.map_cons, List.cons_append, parLine, readLines_par h4 h5, ih (fun q hq => hps q (List.mem_cons_of_mem _ hq)), hst,
          List.map_cons, List.cons_append, h2]
    have hsubs : ∀ ms : List Nat, (∀ m ∈ ms, m ∈ subs n l) → ∀ (tail st : List Str), st.take (names l n).length = names l n →
        ∃ st', st'.take (names l n).length = names l n ∧
          readLines ((ms.flatMap fun m => nsLine l (names l n).length m :: linesOf fmt mem l d m ((names l n).length + 1)) ++ tail) st =
          (ms.flatMap (order l d)).map (fun p => (names l (nsOf p l) ++ [parIdOf p l], valText fmt (mem p) (valueOf p l))) ++
            readLines tail st' := by
      intro ms
      induction ms with
      | nil => intro _ tail st hst; exact ⟨st, hst, rfl⟩
      | cons m ms ih =>
        intro hms tail st hst
        have hm := hms m List.mem_cons_self
        obtain ⟨h1, h2⟩ := (mem_subs hp).mp hm
        obtain ⟨-, h4, h5⟩ := hrd.ns m h1 (by rw [h2]; simp)
        have hc := names_child hp hn hm
        have hlen : (names l m).length = (names l n).length + 1 := by rw [hc]; simp
        rw [List.flatMap_cons, List.cons_append, List.cons_append, List.append_assoc, nsLine, readLines_ns h4 h5, hst, ← hc, ← hlen]
        obtain ⟨st1, h6, h7⟩ := readLines_spec hp hrd mem d m h1
          ((ms.flatMap fun m' => nsLine l (names l n).length m' :: linesOf fmt mem l d m' (names l m).length) ++ tail)
          (names l m) (List.take_length)
        have h6' : st1.take (names l n).length = names l n := by
          have := congrArg (List.take (names l n).length) h6
          rw [List.take_take, Nat.min_eq_left (by omega), hc, List.take_left] at this
          exact this
        obtain ⟨st2, h8, h9⟩ := ih (fun q hq => hms q (List.mem_cons_of_mem _ hq)) tail st1 h6'
        refine ⟨st2, h8, ?_⟩
        rw [h7, hlen, h9, List.flatMap_cons, List.map_append, List.append_assoc]
    obtain ⟨st', h1, h2⟩ := hsubs (subs n l) (fun _ h => h) rest st hst
    refine ⟨st', h1, ?_⟩
    rw [List.append_assoc, hpars (parsIn n l) (fun p h => (mem_parsIn hp).mp h), h2, List.map_append, List.append_assoc]

theorem cStr_sub {s : Str} {c : Nat} (h : c ∈ cStr s) : c ∈ s := List.takeWhile_sublist _ |>.subset h

theorem intercalate_newline {xs : List Str} (h : ∀ x ∈ xs, newline ∉ x) : newline ∉ List.intercalate (str ", ") xs := by
  intro hm
  simp only [List.intercalate, List.mem_flatten] at hm
  obtain ⟨y, hy, hc⟩ := hm
  have : ∀ (xs : List Str), y ∈ List.intersperse (str ", ") xs → y = str ", " ∨ y ∈ xs := by
    intro xs
    induction xs with
    | nil => intro h; simp at h
    | cons a xs ih =>
      intro h
      cases xs with
      | nil => simp at h; exact .inr (by simp [h])
      | cons b xs =>
        rw [List.intersperse_cons₂] at h
        rcases List.mem_cons.mp h with h | h
        · exact .inr (by simp [h])
        rcases List.mem_cons.mp h with h | h
        · exact .inl h
        rcases ih h with h | h
        · exact .inl h
        · exact .inr (List.mem_cons_of_mem _ h)
  rcases this xs hy with rfl | h'
  · revert hc; decide
  · exact h y h' hc

theorem valText_newline {fmt : Fmt} {l : List Op} (hrd : Readable fmt l) (mem : Bool) (p : Nat) : newline ∉ valText fmt mem (valueOf p l) := by
  have hvec : ∀ v : List W32, newline ∉ str "[" ++ List.intercalate (str ", ") (v.map fmt.f) ++ str "]" := by
    intro v h
    rcases List.mem_append.mp h with h | h
    · rcases List.mem_append.mp h with h | h
      · revert h; decide
      · exact intercalate_newline (fun x hx => by obtain ⟨w, -, rfl⟩ := List.mem_map.mp hx; exact hrd.f w) h
    · revert h; decide
  cases hv : valueOf p l with
  | none => show newline ∉ str "~"; decide
  | some a =>
    cases a with
    | scalar v => exact hrd.f v
    | integer v => exact hrd.d v
    | boolean b => cases b with
      | false => show newline ∉ str "false"; decide
      | true => show newline ∉ str "true"; decide
    | string s =>
      cases mem with
      | false => show newline ∉ str "\"\" # warning: malloc failed during serialization!"; decide
      | true =>
        intro h
        replace h : newline ∈ str "\"" ++ cStr s ++ str "\"" := h
        rcases List.mem_append.mp h with h | h
        · rcases List.mem_append.mp h with h | h
          · revert h; decide
          · exact hrd.str p s hv (cStr_sub h)
        · revert h; decide
    | vector v => cases mem with
      | false => show newline ∉ str "[] # warning: malloc failed during serialization!"; decide
      | true => exact hvec v
    | varVector v => cases mem with
      | false => show newline ∉ str "[] # warning: malloc failed during serialization!"; decide
      | true => exact hvec v

theorem linesOf_newline {l : List Op} (hp : Proper l) {fmt : Fmt} (hrd : Readable fmt l) (mem : Nat → Bool) :
    ∀ (d n ind : Nat), ∀ x ∈ linesOf fmt mem l d n ind, newline ∉ x
  | 0, _, _, x, h => by cases h
  | d + 1, n, ind, x, h => by
    simp only [linesOf, List.mem_append, List.mem_map, List.mem_flatMap, List.mem_cons] at h
    rcases h with ⟨p, hpm, rfl⟩ | ⟨m, hm, rfl | h⟩
    · have h1 := (hrd.par p ((mem_parsIn hp).mp hpm).1).1
      have h2 := valText_newline hrd (mem p) p
      unfold parLine
      simp only [List.mem_append, not_or]
      exact ⟨⟨⟨indent_newline ind, h1⟩, by decide⟩, h2⟩
    · obtain ⟨h1, h2⟩ := (mem_subs hp).mp hm
      have h3 := (hrd.ns m h1 (by rw [h2]; simp)).1
      unfold nsLine
      simp only [List.mem_append, not_or]
      exact ⟨⟨indent_newline ind, h3⟩, by decide⟩
    · exact linesOf_newline hp hrd mem d m (ind + 1) x h

/-- The printed text, read again, has every parameter once, in the order of the indices, under the names of its namespaces and its own name,
with the text of its value. Missing: values with a newline and buffers of 65535 characters, for which it does not hold (`newline_breaks`,
`largest_buffer`). -/
theorem print_read_partial {fuel : Nat} {h0 h : Heap} {l : List Op} (hp : Proper l) (hf : l.length ≤ fuel)
    (hr : run fuel h0 l = .ok h) {fmt : Fmt} (hrd : Readable fmt l) (mem : Nat → Bool)
    (hbuf : ∀ p buf j df, declOf p l = some (.string buf j df) → buf.length < 65535) {root : Nat} (hroot : root ∈ nss l)
    (htop : parentOf root l = none) :
    ∃ text, print fmt mem fuel h root = .ok text ∧ ∃ ps : List Nat, ps.Nodup ∧ (∀ p, p ∈ ps ↔ p ∈ pars l ∧ Under l root (nsOf p l)) ∧
      (∀ i, findByIndex fuel h root i = .ok ps[i]?) ∧ (read text).length = ps.length ∧
      ∀ (i p : Nat), ps[i]? = some p → ∃ cs, AtPath l root cs (nsOf p l) ∧
        (read text)[i]? = some (cs ++ [parIdOf p l], valText fmt (mem p) (valueOf p l)) := by
  have hlen : l.length < fuel + (chain root l).length := by
    rw [chain_unfold hp hroot, List.length_cons]; omega
  have h0' : names l root = [] := by unfold names; rw [chain_unfold hp hroot, htop]; rfl
  obtain ⟨st, -, h1⟩ := readLines_spec hp hrd mem fuel root hroot [] [] (by rw [h0']; rfl)
  have hread : read (unlines (linesOf fmt mem l fuel root 0)) =
      (order l fuel root).map (fun p => (names l (nsOf p l) ++ [parIdOf p l], valText fmt (mem p) (valueOf p l))) := by
    unfold read
    rw [splitLines_unlines (linesOf_newline hp hrd mem fuel root 0)]
    rw [h0', List.append_nil] at h1
    rw [show (0 : Nat) = ([] : List Str).length from rfl, h1, readLines, List.append_nil]
  refine ⟨_, nsPrint_spec hp hf hr fmt mem hbuf fuel root 0 hroot hlen, order l fuel root, nodup_order hp fuel root hroot hlen,
    fun p => mem_order hp fuel root hroot hlen, fun i => ?_, by rw [hread, List.length_map], fun i p hi => ?_⟩
  · unfold findByIndex
    rw [byIndexFrom_spec (run_inv' hp hf hr).tree hp hf fuel root 0 hroot hlen (Nat.zero_le _)]
    show Except.ok (hit (order l fuel root) i 0).1 = _
    rw [hit_index]
  · obtain ⟨-, hu⟩ := (mem_order hp fuel root hroot hlen).mp (List.mem_of_getElem? hi)
    exact ⟨_, chain_path hp hroot htop hu, by rw [hread, List.getElem?_map, hi]; rfl⟩

/-! ## Findings -/

/-- A string with a newline in its value, and the same memory with another parameter. -/
def newlineOps : List Op :=
  [.declPar 0 0 (str "a") (.string (List.replicate 8 0) 0 (some (str "x\nb: 1"))), .declNs 0 none []]

/-- Strings are printed as they are: a newline in a value makes another line, which reads as another parameter. -/
theorem newline_breaks (fmt : Fmt) : ∃ h, Proper newlineOps ∧ run 3 blank newlineOps = .ok h ∧ pars newlineOps = [0] ∧
    ∃ text, print fmt (fun _ => true) 3 h 0 = .ok text ∧ read text = [([str "a"], str "\"x"), ([str "b"], str "1\"")] := by
  have hp : Proper newlineOps := ⟨by simp [pars], by simp [nss], by decide, by simp [DeclOK, str], by simp [nss], by simp, by simp, trivial⟩
  obtain ⟨h, hr⟩ := run_ok (fuel := 3) (h0 := blank) hp (by decide)
  refine ⟨h, hp, hr, rfl, ?_⟩
  have h1 := nsPrint_spec hp (by decide) hr fmt (fun _ => true) (by
    intro p buf j df hd
    simp only [newlineOps, declOf] at hd
    split at hd
    · cases hd; simp
    · cases hd) 3 0 0 (by decide) (by decide)
  exact ⟨_, h1, by rfl⟩

/-- The buffer for a string of at most 65535 characters has a size of 65536, which becomes 0: printing it copies far too much. -/
theorem largest_buffer {h : Heap} {p : Nat} {buf : Str} {len : Nat} (hv : h.val p = .string buf len) (hdef : h.defined p = true)
    (hb : buf.length = 65535) (fmt : Fmt) {mem : Nat → Bool} (hmem : mem p = true) : valuePrint fmt mem h p = .error .outOfBounds := by
  unfold valuePrint
  rw [if_neg (by simp [parDefined, hdef]), hv]
  have e : (buf.length + 1) % 65536 = 0 := by rw [hb]
  simp only [hmem, if_true, e, stringRead, hv, hdef, assert]
  rfl

/-! ## The hypotheses are met -/

/-- A board with a namespace and parameters of several types. -/
def smallOps : List Op :=
  [.declPar 2 1 (str "c") (.vector [1, 2, 3] 2 true), .declPar 1 1 (str "b") (.string [0, 0, 0] 0 (some (str "hi"))), .declPar 0 0 (str "a") (.integer 0 (some 5)),
   .declNs 1 (some 0) (str "foo"), .declNs 0 none []]

def smallFmt : Fmt := ⟨fun _ => str "1.0", fun _ => str "5"⟩

example : Proper smallOps ∧ Readable smallFmt smallOps ∧ 0 ∈ nss smallOps ∧ parentOf 0 smallOps = none ∧
    (∀ p buf j df, declOf p smallOps = some (.string buf j df) → buf.length < 65535) := by
  refine ⟨?_, ⟨by decide, by decide, ?_, fun _ => (show newline ∉ str "1.0" by decide), fun _ => (show newline ∉ str "5" by decide)⟩, by decide, by decide, ?_⟩
  · exact ⟨by decide, by decide, by decide, by simp [DeclOK], by decide, by decide, by decide, by simp [DeclOK, str], by decide, by decide, by decide, trivial,
      by decide, by simp [nss], by decide, by decide, by simp, by decide, trivial⟩
  · intro p s h
    simp only [smallOps, valueOf] at h
    split at h
    · cases h
    split at h
    · cases h; decide
    split at h <;> cases h
  · intro p buf j df h
    simp only [smallOps, declOf] at h
    split at h
    · cases h
    split at h
    · cases h; decide
    split at h <;> cases h

/-- The text for it. -/
example : (match run 9 blank smallOps with
    | .error _ => false
    | .ok h => decide ((print smallFmt (fun _ => true) 9 h 0).toOption = some (str "a: 5\nfoo:\n  c: [1.0, 1.0]\n  b: \"hi\"\n"))) = true := by
  decide +kernel

example : read (str "a: 5\nfoo:\n  c: [1.0, 1.0]\n  b: \"hi\"\n") =
    [([str "a"], str "5"), ([str "foo", str "c"], str "[1.0, 1.0]"), ([str "foo", str "b"], str "\"hi\"")] := by decide +kernel

end Verif.ParamPrint
