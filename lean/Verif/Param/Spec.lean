import Verif.Param.Model

/-!
# Parameter tree: histories and what they mean

Histories are lists of operations, newest first. Nothing here refers to the heap.
-/

namespace Verif.Param

/-- A value as the user sees it. -/
inductive AVal where
  | scalar (v : W32)
  | integer (v : W32)
  | boolean (v : Bool)
  | vector (v : List W32)
  | varVector (v : List W32)
  | string (s : Str)
deriving DecidableEq, Repr

/-- A declaration: initial memory of the value and default. -/
inductive Decl where
  | scalar (junk : W32) (dflt : Option W32)
  | integer (junk : W32) (dflt : Option W32)
  | boolean (junk : Bool) (dflt : Option Bool)
  | vector (buf : List W32) (dim : Nat) (dflt : Bool)
  | varVector (buf : List W32) (junk : Nat) (dflt : Option Nat)
  | string (buf : Str) (junk : Nat) (dflt : Option Str)
deriving DecidableEq, Repr

inductive Op where
  | declNs (n : Nat) (parent : Option Nat) (id : Str)
  | declPar (p n : Nat) (id : Str) (d : Decl)
  | set (p : Nat) (v : AVal)
  | get (p : Nat)
deriving DecidableEq, Repr

/-- Default value of a declaration. -/
def Decl.default : Decl → Option AVal
  | .scalar _ d => d.map .scalar
  | .integer _ d => d.map .integer
  | .boolean _ d => d.map .boolean
  | .vector buf dim d => if d then some (.vector (buf.take dim)) else none
  | .varVector buf _ d => d.map (fun k => .varVector (buf.take k))
  | .string _ _ d => d.map .string

/-- Namespaces and parameters declared. -/
def nss : List Op → List Nat
  | [] => []
  | .declNs n _ _ :: l => n :: nss l
  | _ :: l => nss l

def pars : List Op → List Nat
  | [] => []
  | .declPar p _ _ _ :: l => p :: pars l
  | _ :: l => pars l

/-- Direct children, newest first. -/
def subs (n : Nat) : List Op → List Nat
  | [] => []
  | .declNs m parent _ :: l => if parent = some n then m :: subs n l else subs n l
  | _ :: l => subs n l

def parsIn (n : Nat) : List Op → List Nat
  | [] => []
  | .declPar p m _ _ :: l => if m = n then p :: parsIn n l else parsIn n l
  | _ :: l => parsIn n l

def nsIdOf (n : Nat) : List Op → Str
  | [] => []
  | .declNs m _ id :: l => if m = n then id else nsIdOf n l
  | _ :: l => nsIdOf n l

def parentOf (n : Nat) : List Op → Option Nat
  | [] => none
  | .declNs m parent _ :: l => if m = n then parent else parentOf n l
  | _ :: l => parentOf n l

def parIdOf (p : Nat) : List Op → Str
  | [] => []
  | .declPar q _ id _ :: l => if q = p then id else parIdOf p l
  | _ :: l => parIdOf p l

def nsOf (p : Nat) : List Op → Nat
  | [] => 0
  | .declPar q n _ _ :: l => if q = p then n else nsOf p l
  | _ :: l => nsOf p l

def declOf (p : Nat) : List Op → Option Decl
  | [] => none
  | .declPar q _ _ d :: l => if q = p then some d else declOf p l
  | _ :: l => declOf p l

/-- Value of a parameter: last set, or the default. -/
def valueOf (p : Nat) : List Op → Option AVal
  | [] => none
  | .declPar q _ _ d :: l => if q = p then d.default else valueOf p l
  | .set q v :: l => if q = p then some v else valueOf p l
  | _ :: l => valueOf p l

/-- Set (or declared with a default) and not read with `get` since. -/
def changedOf (p : Nat) : List Op → Bool
  | [] => false
  | .declPar q _ _ d :: l => if q = p then d.default.isSome else changedOf p l
  | .set q _ :: l => if q = p then true else changedOf p l
  | .get q :: l => if q = p then false else changedOf p l
  | _ :: l => changedOf p l

/-- A namespace and those around it. -/
def chain (n : Nat) : List Op → List Nat
  | [] => []
  | .declNs m parent _ :: l =>
    if m = n then
      n :: (match parent with
        | none => []
        | some q => chain q l)
    else chain n l
  | _ :: l => chain n l

def DeclOK : Decl → Prop
  | .vector buf dim _ => dim ≤ buf.length
  | .varVector buf _ (some k) => k ≤ buf.length
  | .string buf _ (some s) => s.length ≤ buf.length ∧ s.length < 65536
  | _ => True

/-- The value has the type of the declaration and fits the buffer. -/
def Fits : Decl → AVal → Prop
  | .scalar _ _, .scalar _ => True
  | .integer _ _, .integer _ => True
  | .boolean _ _, .boolean _ => True
  | .vector _ dim _, .vector v => v.length = dim
  | .varVector buf _ _, .varVector v => v.length ≤ buf.length
  | .string buf _ _, .string s => s.length ≤ buf.length ∧ s.length < 65536
  | _, _ => False

/-- Correct use: nodes are declared once, below declared namespaces; set with the right type and size; get only
if the parameter has a value. Identifiers are C strings. -/
def Proper : List Op → Prop
  | [] => True
  | .declNs n parent id :: l => n ∉ nss l ∧ (∀ m, parent = some m → m ∈ nss l) ∧ 0 ∉ id ∧ Proper l
  | .declPar p n id d :: l => p ∉ pars l ∧ n ∈ nss l ∧ 0 ∉ id ∧ DeclOK d ∧ Proper l
  | .set p v :: l => (∃ d, declOf p l = some d ∧ Fits d v) ∧ Proper l
  | .get p :: l => valueOf p l ≠ none ∧ Proper l

/-- `'/'`-separated components. -/
def components : Str → List Str
  | [] => [[]]
  | c :: s =>
    if c = slash then [] :: components s
    else match components s with
      | [] => [[c]]
      | q :: qs => (c :: q) :: qs

/-- Namespace reached from `n`; empty components are skipped. -/
def walk (l : List Op) : Nat → List Str → Option Nat
  | n, [] => some n
  | n, [] :: cs => walk l n cs
  | n, c :: cs =>
    match (subs n l).find? (fun m => nsIdOf m l = c) with
    | none => none
    | some m => walk l m cs

/-- Parameter reached from `n`: the last component names the parameter. -/
def walkPar (l : List Op) : Nat → List Str → Option Nat
  | _, [] => none
  | n, [c] => if c = [] then none else (parsIn n l).find? (fun p => parIdOf p l = c)
  | n, [] :: cs => walkPar l n cs
  | n, c :: cs =>
    match (subs n l).find? (fun m => nsIdOf m l = c) with
    | none => none
    | some m => walkPar l m cs

/-- `m` is namespace `a` or is nested somewhere below it. -/
inductive Under (l : List Op) (a : Nat) : Nat → Prop where
  | self : Under l a a
  | child {m q : Nat} : m ∈ nss l → parentOf m l = some q → Under l a q → Under l a m

/-- Following the identifiers `cs` down from namespace `n` one can reach `m`. -/
inductive AtPath (l : List Op) : Nat → List Str → Nat → Prop where
  | nil (n : Nat) : AtPath l n [] n
  | cons {n m k : Nat} {cs : List Str} : m ∈ nss l → parentOf m l = some n → AtPath l m cs k →
      AtPath l n (nsIdOf m l :: cs) k

/-- No two nodes with the same identifier in the same namespace. -/
def Distinct (l : List Op) : Prop :=
  (∀ m ∈ nss l, ∀ m' ∈ nss l, parentOf m l ≠ none → parentOf m l = parentOf m' l → nsIdOf m l = nsIdOf m' l → m = m') ∧
  (∀ p ∈ pars l, ∀ p' ∈ pars l, nsOf p l = nsOf p' l → parIdOf p l = parIdOf p' l → p = p')

end Verif.Param
