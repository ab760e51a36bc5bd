/-!
# FatFs: what an open file is — specification

A file is a finite sequence of bytes with a position in it. Nothing here refers to the model.
-/

namespace Verif.Fat.Spec

/-- `bytes` in place of what is at `pos`; the sequence grows if they reach over its end. -/
def overwrite {α : Type} (data : List α) (pos : Nat) (bytes : List α) : List α := data.take pos ++ bytes ++ data.drop (pos + bytes.length)

/-- The next `n` bytes at `pos`, fewer at the end -/
def portion {α : Type} (data : List α) (pos n : Nat) : List α := (data.drop pos).take n

/-- What may be done with an open file -/
inductive FileOp (α : Type) where
  | write (bytes : List α)
  | read (n : Nat)
  | seek (pos : Nat)
  | truncate

/-- What the caller gets: how much has been written, what has been read -/
inductive Answer (α : Type) where
  | wrote (n : Nat)
  | got (bytes : List α)
  | moved (pos : Nat)
  | cut
deriving DecidableEq

/-- A file: its bytes and the position -/
structure File (α : Type) where
  data : List α
  pos : Nat

/-- An operation on a file. A write may be short (but not a read); a seek over the end may be short too, and gives the file bytes of which nothing is said. -/
inductive Does {α : Type} : File α → FileOp α → File α → Answer α → Prop
  | write {f : File α} {b : List α} {n : Nat} : n ≤ b.length → Does f (.write b) ⟨overwrite f.data f.pos (b.take n), f.pos + n⟩ (.wrote n)
  | read {f : File α} {n : Nat} : Does f (.read n) ⟨f.data, f.pos + (portion f.data f.pos n).length⟩ (.got (portion f.data f.pos n))
  | seek {f : File α} {p : Nat} : p ≤ f.data.length → Does f (.seek p) ⟨f.data, p⟩ (.moved p)
  | stretch {f : File α} {p q : Nat} {new : List α} : q ≤ p → f.data.length < p → (f.data ++ new).length = max f.data.length q → Does f (.seek p) ⟨f.data ++ new, q⟩ (.moved q)
  | truncate {f : File α} : Does f .truncate ⟨f.data.take f.pos, f.pos⟩ .cut

/-- A sequence of operations with their answers -/
inductive Run {α : Type} : File α → List (FileOp α) → File α → List (Answer α) → Prop
  | nil {f : File α} : Run f [] f []
  | cons {f g k : File α} {o : FileOp α} {os : List (FileOp α)} {a : Answer α} {as : List (Answer α)} : Does f o g a → Run g os k as → Run f (o :: os) k (a :: as)

end Verif.Fat.Spec
