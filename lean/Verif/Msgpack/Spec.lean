import Verif.Param.Spec

/-!
# MessagePack encoding of a parameter tree

The format, from the MessagePack specification, and what of a history has to be in the document.
-/

namespace Verif.Msgpack.Spec

open Verif.Param

/-- Big-endian, `k` bytes. -/
def be : Nat → Nat → List Nat
  | 0, _ => []
  | k + 1, x => be k (x / 256) ++ [x % 256]

/-- str family. -/
def str (s : Str) : List Nat :=
  (if s.length < 32 then [0xA0 + s.length]
    else if s.length < 256 then 0xD9 :: be 1 s.length
    else if s.length < 65536 then 0xDA :: be 2 s.length
    else 0xDB :: be 4 s.length) ++ s

/-- array header. -/
def array (n : Nat) : List Nat :=
  if n < 16 then [0x90 + n] else if n < 65536 then 0xDC :: be 2 n else 0xDD :: be 4 n

/-- map header. -/
def map (n : Nat) : List Nat :=
  if n < 16 then [0x80 + n] else if n < 65536 then 0xDE :: be 2 n else 0xDF :: be 4 n

def float (v : W32) : List Nat := 0xCA :: be 4 v.toNat
def int32 (v : W32) : List Nat := 0xD2 :: be 4 v.toNat
def bool (b : Bool) : List Nat := [if b then 0xC3 else 0xC2]
def floats (v : List W32) : List Nat := array v.length ++ v.flatMap float

def value : AVal → List Nat
  | .scalar v => float v
  | .integer v => int32 v
  | .boolean b => bool b
  | .vector v => floats v
  | .varVector v => floats v
  | .string s => str s

/-- A parameter with a value: its name and value; nothing for the others. -/
def par (l : List Op) (p : Nat) : List Nat :=
  match valueOf p l with
  | none => []
  | some v => str (parIdOf p l) ++ value v

/-- Number of entries of the map of a namespace. -/
def entries (l : List Op) (n : Nat) : Nat := (subs n l).length + ((parsIn n l).filter (fun p => (valueOf p l).isSome)).length

/-- Document of a namespace, for trees of depth less than the first argument. -/
def tree (l : List Op) : Nat → Nat → List Nat
  | 0, _ => []
  | f + 1, n => map (entries l n) ++ (subs n l).flatMap (fun m => str (nsIdOf m l) ++ tree l f m) ++ (parsIn n l).flatMap (par l)

/-- Document of a namespace: a map with the sub-namespaces and the defined parameters. `doc_eq` in Props is the
equation it satisfies. -/
def doc (l : List Op) (n : Nat) : List Nat := tree l l.length n

/-- Well-formed documents made of the types used here. -/
inductive WF : List Nat → Prop where
  | bool (b : Bool) : WF (bool b)
  | float (v : W32) : WF (float v)
  | int32 (v : W32) : WF (int32 v)
  | str (s : Str) : s.length < 2 ^ 32 → WF (str s)
  | array (vs : List (List Nat)) : vs.length < 2 ^ 32 → (∀ v ∈ vs, WF v) → WF (array vs.length ++ vs.flatten)
  | map (kvs : List (List Nat × List Nat)) : kvs.length < 2 ^ 32 → (∀ kv ∈ kvs, WF kv.1) → (∀ kv ∈ kvs, WF kv.2) →
      WF (map kvs.length ++ kvs.flatMap (fun kv => kv.1 ++ kv.2))

/-- What a declaration fixes apart from initial memory and default. -/
inductive Shape where
  | ns (n : Nat) (parent : Option Nat) (id : Str)
  | scalar (p n : Nat) (id : Str)
  | integer (p n : Nat) (id : Str)
  | boolean (p n : Nat) (id : Str)
  | vector (p n : Nat) (id : Str) (dim : Nat)
  | varVector (p n : Nat) (id : Str) (size : Nat)
  | string (p n : Nat) (id : Str) (size : Nat)
deriving DecidableEq

def shape : Op → Option Shape
  | .declNs n parent id => some (.ns n parent id)
  | .declPar p n id (.scalar _ _) => some (.scalar p n id)
  | .declPar p n id (.integer _ _) => some (.integer p n id)
  | .declPar p n id (.boolean _ _) => some (.boolean p n id)
  | .declPar p n id (.vector _ dim _) => some (.vector p n id dim)
  | .declPar p n id (.varVector buf _ _) => some (.varVector p n id buf.length)
  | .declPar p n id (.string buf _ _) => some (.string p n id buf.length)
  | .set _ _ => none
  | .get _ => none

/-- The two histories declare the same tree; defaults and values may differ. -/
def SameDecls (l l' : List Op) : Prop := l.filterMap shape = l'.filterMap shape

/-- Names that can be looked up: not empty, no `'/'`, and short enough for the format. -/
def Name (s : Str) : Prop := s ≠ [] ∧ slash ∉ s ∧ s.length + 1 < 2 ^ 32

def Named (l : List Op) : Prop :=
  (∀ m ∈ nss l, parentOf m l ≠ none → Name (nsIdOf m l)) ∧ (∀ p ∈ pars l, Name (parIdOf p l))

/-- Names are at most `B` bytes long and the maps have less than 2^32 entries. -/
def Sized (l : List Op) (B : Nat) : Prop :=
  (∀ m ∈ nss l, (nsIdOf m l).length ≤ B ∧ entries l m < 2 ^ 32) ∧ (∀ p ∈ pars l, (parIdOf p l).length ≤ B)

/-- String values leave room for a terminator. -/
def RoomForNul (l : List Op) : Prop :=
  ∀ p s b j d, valueOf p l = some (.string s) → declOf p l = some (.string b j d) → s.length < b.length

/-- Vectors have less than 2^16 elements (their dimension is a `uint16_t`). -/
def Dims (l : List Op) : Prop :=
  (∀ p x, valueOf p l = some (.vector x) → x.length < 65536) ∧ (∀ p x, valueOf p l = some (.varVector x) → x.length < 65536)

end Verif.Msgpack.Spec
