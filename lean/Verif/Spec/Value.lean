import Verif.Model.Pbf
/-
Specification vocabulary: typed values of the vector tile format (vector_tile.proto, message Value).
-/
namespace Tiles.Spec

inductive Typed where
  | bool (b : Bool)
  | str (s : Bytes)
  | double (bits : Nat)
  | int (v : Int)
  deriving DecidableEq, Repr

/-- what a client reads from the fields of a `Value` message that has exactly one value -/
def clientField : PbfField → Option Typed
  | .bytes 1 s => some (.str s)
  | .fixed64 3 d => some (.double d)
  | .varint 6 n => some (.int (unzigzag n))
  | .varint 7 b => some (.bool (b != 0))
  | _ => none

/-- what a client reads from the bytes of a `Value` message -/
def clientValue (msg : Bytes) : Option Typed :=
  match decMessage msg with
  | .ok [f] => clientField f
  | _ => none

end Tiles.Spec
