import Verif.Model.Fixed
/-! Specification vocabulary for the node index (C19, C20, C43). -/
namespace Tiles

/-- the position of the (first) node with this id, up to sign -/
def Spec.nodeAt (nodes : List (Int × XY)) (id : Int) : Option XY :=
  (nodes.find? (fun n => n.1.natAbs == id.natAbs)).map (·.2)

/-- an input the index accepts: positions are 32-bit unsigned, absolute ids do not decrease, and nodes with the same absolute id
have the same position -/
def Spec.NodesOk (nodes : List (Int × XY)) : Prop :=
  (∀ n ∈ nodes, 0 ≤ n.2.x ∧ n.2.x < 2 ^ 32 ∧ 0 ≤ n.2.y ∧ n.2.y < 2 ^ 32) ∧
  nodes.Pairwise (fun a b => a.1.natAbs ≤ b.1.natAbs ∧ (a.1.natAbs = b.1.natAbs → a.2 = b.2))

end Tiles
