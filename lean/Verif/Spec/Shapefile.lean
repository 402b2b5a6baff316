import Verif.Model.Basic
/-! The ESRI shapefile format for polygon files, written down from its technical description. -/
namespace Tiles.Spec

/-- a point: the object representations of its x (longitude) and y (latitude) doubles -/
structure ShpPoint where
  lng : Nat
  lat : Nat

/-- a polygon record: bounding box bytes (32) and its rings -/
structure ShpPolygon where
  box : Bytes
  rings : List (List ShpPoint)

def beBytes (n v : Nat) : Bytes := (leBytes n v).reverse

def shpPoint (p : ShpPoint) : Bytes := leBytes 8 p.lng ++ leBytes 8 p.lat

/-- index of the first point of each ring in the concatenated point array -/
def starts : Nat → List (List ShpPoint) → List Nat
  | _, [] => []
  | i, r :: rs => i :: starts (i + r.length) rs

def ShpPolygon.points (p : ShpPolygon) : List ShpPoint := p.rings.flatten

/-- record contents -/
def shpContent (p : ShpPolygon) : Bytes :=
  leBytes 4 5 ++ p.box ++ leBytes 4 p.rings.length ++ leBytes 4 p.points.length ++
    (starts 0 p.rings).flatMap (leBytes 4) ++ p.points.flatMap shpPoint

/-- record header (number, length in 16-bit words, both big endian) and contents -/
def shpRecord (number : Nat) (p : ShpPolygon) : Bytes :=
  beBytes 4 number ++ beBytes 4 ((shpContent p).length / 2) ++ shpContent p

def shpRecords : Nat → List ShpPolygon → Bytes
  | _, [] => []
  | n, p :: ps => shpRecord n p ++ shpRecords (n + 1) ps

/-- a polygon shapefile: 100 byte header (magic 9994 big endian, version 1000, type 5) and the records -/
def shpFile (pad1 pad2 : Bytes) (ps : List ShpPolygon) : Bytes :=
  beBytes 4 9994 ++ pad1 ++ leBytes 4 1000 ++ leBytes 4 5 ++ pad2 ++ shpRecords 1 ps

/-- a polygon the format can hold: 32 byte box, at least one ring, no empty ring, 64-bit coordinates, sizes in range -/
def ShpPolygon.Ok (p : ShpPolygon) : Prop :=
  p.box.length = 32 ∧ p.rings ≠ [] ∧ (∀ r ∈ p.rings, r ≠ []) ∧
    (∀ q ∈ p.points, q.lng < 2 ^ 64 ∧ q.lat < 2 ^ 64) ∧ (shpContent p).length + 8 < 2 ^ 31

end Tiles.Spec
