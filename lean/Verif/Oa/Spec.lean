import Verif.Oa.Model

/-!
# Obstacle avoidance: what is required
-/

namespace Verif.Oa

/-- A ray of weight `c` joins the two points. -/
def Adj (rays : List Ray) (u v : Vertex) (c : Nat) : Prop := ⟨u, v, c⟩ ∈ rays ∨ ⟨v, u, c⟩ ∈ rays

/-- `Chain rays v l u w`: from `u` one gets along rays over the points `l`, the last of which is `v`, with total weight `w`. -/
inductive Chain (rays : List Ray) (v : Vertex) : List Vertex → Vertex → Nat → Prop where
  | nil : Chain rays v [] v 0
  | cons {u x c l w} : Adj rays u x c → Chain rays v l x w → Chain rays v (x :: l) u (c + w)

/-- No chain between the two points is lighter. -/
def Lightest (rays : List Ray) (u v : Vertex) (w : Nat) : Prop := ∀ l w', Chain rays v l u w' → w ≤ w'

end Verif.Oa
