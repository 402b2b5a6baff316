import Verif.Model.Fixed
import Mathlib.Data.List.SplitBy
/-! Specification vocabulary for the statistics of the node index (C76). -/
namespace Tiles.Spec

/-- the nodes of the index: every absolute id once, in order of the input -/
def storedNodes (nodes : List (Int × XY)) : List (Nat × XY) := (nodes.map (fun n => (n.1.natAbs, n.2))).eraseDups

/-- how many bytes (of seven bits each) a difference of two coordinates takes -/
def deltaBytes (d : Int) : Nat :=
  if -2 ^ 6 ≤ d ∧ d < 2 ^ 6 then 1
  else if -2 ^ 13 ≤ d ∧ d < 2 ^ 13 then 2
  else if -2 ^ 20 ≤ d ∧ d < 2 ^ 20 then 3
  else if -2 ^ 27 ≤ d ∧ d < 2 ^ 27 then 4
  else 5

/-- two nodes one after the other in a span: consecutive ids, and the step between them takes at most nine bytes -/
def inOneSpan (a b : Nat × XY) : Bool := decide (b.1 = a.1 + 1 ∧ deltaBytes (b.2.x - a.2.x) + deltaBytes (b.2.y - a.2.y) ≤ 9)

/-- the spans of the index: the nodes cut between any two that are not in one span -/
def nodeSpans (nodes : List (Int × XY)) : List (List (Nat × XY)) := (storedNodes nodes).splitBy inOneSpan

/-- the differences stored for a span -/
def spanDeltas (span : List (Nat × XY)) : List Int := (span.zip span.tail).flatMap (fun s => [s.2.2.x - s.1.2.x, s.2.2.y - s.1.2.y])

end Tiles.Spec
