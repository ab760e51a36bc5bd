/-!
# Chains of clusters, independently of the code

In a table that says for every cluster which one follows, the clusters of a file form a chain that ends with a value that is no cluster. Clusters with the value 0 are free.
-/

namespace Verif.Fat.Spec

/-- The clusters of `L`, in this order, are a chain from `c` on in a table with clusters 2 to `n - 1`. -/
inductive Chain (tbl : Nat → Nat) (n : Nat) : Nat → List Nat → Prop
  | last {c : Nat} : 2 ≤ c → c < n → n ≤ tbl c → Chain tbl n c [c]
  | link {c : Nat} {L : List Nat} : 2 ≤ c → c < n → 2 ≤ tbl c → tbl c < n → Chain tbl n (tbl c) L → Chain tbl n c (c :: L)

/-- The clusters in the order in which a search that starts after `scl` and goes around meets them -/
def order (n scl : Nat) : List Nat := List.range' (scl + 1) (n - 1 - scl) ++ List.range' 2 (scl - 1)

/-- The number of free clusters -/
def freeCount (tbl : Nat → Nat) (n : Nat) : Nat := (List.range' 2 (n - 2)).countP fun c => tbl c == 0

/-- The clusters of the files of `F`, each a chain, and nothing else is in use. -/
structure Files (tbl : Nat → Nat) (n : Nat) (F : List (List Nat)) : Prop where
  chains : ∀ L ∈ F, ∃ c, Chain tbl n c L
  apart : F.flatten.Nodup
  used : ∀ c, 2 ≤ c → c < n → tbl c ≠ 0 → c ∈ F.flatten

end Verif.Fat.Spec
