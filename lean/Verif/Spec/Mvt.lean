import Verif.Model.Pbf
import Verif.Model.Fixed
/-
Specification: how a client reads a geometry, written from the Mapbox vector tile specification 2.1, section 4.3.
The command stream is a list of 32-bit integers; the cursor starts at (0,0).  A MoveTo starts a new part, a LineTo appends a
point to the part, ClosePath closes the part and does not move the cursor.
-/
namespace Tiles.Spec

structure MvtPart where
  points : List XY
  closed : Bool
  deriving DecidableEq, Repr

/-- a part gets a further point / is closed; a stream that starts with one of these is malformed -/
def addPoint (p : XY) : List MvtPart → Option (List MvtPart)
  | [] => none
  | q :: qs => some (⟨q.points ++ [p], q.closed⟩ :: qs)

def closePart : List MvtPart → Option (List MvtPart)
  | [] => none
  | q :: qs => some (⟨q.points, true⟩ :: qs)

/-- parameter integers are zigzag encoded -/
def param (v : Nat) : Int := if v % 2 = 0 then (v / 2 : Nat) else -((v / 2 : Nat) : Int) - 1

/-- `n` more parameter pairs of command `cmd` are expected; `parts` are in reverse order -/
def mvtRun : List Nat → (cmd n : Nat) → (cur : XY) → (parts : List MvtPart) → Option (List MvtPart)
  | [], _, 0, _, parts => some parts
  | [], _, _ + 1, _, _ => none
  | c :: rest, _, 0, cur, parts =>
    if c % 8 = 7 then
      if c / 8 = 1 then (closePart parts).bind (fun ps => mvtRun rest 0 0 cur ps) else none
    else if c % 8 = 1 ∨ c % 8 = 2 then
      if c / 8 = 0 then none else mvtRun rest (c % 8) (c / 8) cur parts
    else none
  | [_], _, _ + 1, _, _ => none
  | dx :: dy :: rest, cmd, n + 1, cur, parts =>
    let p : XY := ⟨cur.x + param dx, cur.y + param dy⟩
    if cmd = 1 then mvtRun rest cmd n p (⟨[p], false⟩ :: parts)
    else (addPoint p parts).bind (fun ps => mvtRun rest cmd n p ps)

/-- the parts of a command stream -/
def mvtParts (els : List Nat) : Option (List MvtPart) := (mvtRun els 0 0 ⟨0, 0⟩ []).map List.reverse

def typeField : PbfField → Option Nat
  | .varint t v => if t = 3 then some v else none
  | _ => none

def geomField : PbfField → Option Bytes
  | .bytes t d => if t = 4 then some d else none
  | _ => none

/-- geometry type (field 3) and parts (field 4, packed) of a feature message -/
def clientGeometry (fields : List PbfField) : Option (Nat × List MvtPart) :=
  match fields.filterMap typeField, fields.filterMap geomField with
  | [t], [d] =>
    match decPacked d with
    | .ok els => (mvtParts els).map (fun ps => (t, ps))
    | _ => none
  | _, _ => none

end Tiles.Spec
