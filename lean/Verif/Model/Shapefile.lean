import Verif.Model.Fixed
/-
Model of `read_shapefile`, /repo/src/osm/load_shapefile.cc:20-104 (unzipping, load_shapefile.cc:106-135, is not modelled).

The buffer is a byte string; reading outside of it is undefined behaviour, and so is signed overflow.  A double is its
64-bit object representation; `conv lat lng` stands for `latlng_to_fixed` (floating point).
-/
namespace Tiles

/-- an int32_t with this object representation -/
def toI32 (n : Nat) : Int := if n % 2 ^ 32 < 2 ^ 31 then ((n % 2 ^ 32 : Nat) : Int) else ((n % 2 ^ 32 : Nat) : Int) - 2 ^ 32

/-- load_shapefile.cc:27-31 `read_int_little` -/
def readIntLittle (buf : Bytes) (pos : Nat) : Res Int :=
  if pos + 4 ≤ buf.length then .ok (toI32 (leNat ((buf.drop pos).take 4))) else .ub

/-- load_shapefile.cc:20-25 `read_int_big` -/
def readIntBig (buf : Bytes) (pos : Nat) : Res Int :=
  if pos + 4 ≤ buf.length then .ok (toI32 (leNat ((buf.drop pos).take 4).reverse)) else .ub

/-- load_shapefile.cc:33-37 `read_double_little` -/
def readDoubleLittle (buf : Bytes) (pos : Nat) : Res Nat :=
  if pos + 8 ≤ buf.length then .ok (leNat ((buf.drop pos).take 8)) else .ub

/-- load_shapefile.cc:67-74: `n` points, the loop index being `i`; note that the code starts at `pts_offset`, not at
`pts_offset + 16 * idx_lb`. -/
def readPoints (conv : Nat → Nat → XY) (buf : Bytes) (ptsOffset : Nat) : Nat → Nat → Res Line
  | _, 0 => .ok []
  | i, n + 1 => do
    let lng ← readDoubleLittle buf (ptsOffset + 16 * i)
    let lat ← readDoubleLittle buf (ptsOffset + 16 * i + 8)
    let rest ← readPoints conv buf ptsOffset (i + 1) n
    return conv lat lng :: rest

/-- load_shapefile.cc:59-75 `read_ring`: outer ring first, then inner rings; `reserve` throws on a negative count -/
def readRing (conv : Nat → Nat → XY) (buf : Bytes) (ptsOffset : Nat) (lb ub : Int) (p : Polygon) : Res Polygon :=
  let count := ub - lb
  if ¬ (-(2 : Int) ^ 31 ≤ count ∧ count < 2 ^ 31) then .ub
  else if count < 0 then .throw_
  else do
    let ring ← readPoints conv buf ptsOffset 0 count.toNat
    return (if p.outer.isEmpty then { p with outer := ring } else { p with inners := p.inners ++ [ring] })

/-- load_shapefile.cc:89-93: the first `n` of the remaining parts, starting at part `i` -/
def readParts (conv : Nat → Nat → XY) (buf : Bytes) (partsOffset ptsOffset : Nat) : Nat → Nat → Polygon → Res Polygon
  | _, 0, p => .ok p
  | i, n + 1, p => do
    let lb ← readIntLittle buf (partsOffset + i * 4)
    let ub ← readIntLittle buf (partsOffset + i * 4 + 4)
    let p ← readRing conv buf ptsOffset lb ub p
    readParts conv buf partsOffset ptsOffset (i + 1) n p

/-- load_shapefile.cc:58-99: one record -/
def readShpRecord (conv : Nat → Nat → XY) (buf : Bytes) (rh : Nat) : Res Polygon := do
  let rc := rh + 8
  let t ← readIntLittle buf rc
  verify (t == 5)
  let numParts ← readIntLittle buf (rc + 36)
  let numPoints ← readIntLittle buf (rc + 40)
  verify (decide (numParts > 0))
  verify (decide (numPoints > 0))
  let partsOffset := rc + 44
  let ptsOffset := partsOffset + 4 * numParts.toNat
  let p ← readParts conv buf partsOffset ptsOffset 0 (numParts.toNat - 1) ⟨[], []⟩
  let lb ← readIntLittle buf (partsOffset + 4 * (numParts.toNat - 1))
  let p ← readRing conv buf ptsOffset lb numPoints p
  verify (!p.outer.isEmpty)
  return p

/-- load_shapefile.cc:54-103: the record loop; `fuel` bounds the iterations (a record is never read twice, because the
record index is checked).  `rh_offset +=` is size_t arithmetic and wraps. -/
def readShpLoop (conv : Nat → Nat → XY) (buf : Bytes) : Nat → Int → Nat → Res (List Polygon)
  | 0, _, _ => .ub
  | fuel + 1, index, rh =>
    if rh < buf.length then do
      let n ← readIntBig buf rh
      verify (index + 1 == n)
      let p ← readShpRecord conv buf rh
      let len ← readIntBig buf (rh + 4)
      if ¬ (-(2 : Int) ^ 31 ≤ len * 2 + 8 ∧ len * 2 + 8 < 2 ^ 31) then .ub
      else do
        let rh' := (((rh : Int) + (8 + len * 2)) % 2 ^ 64).toNat
        verify (decide (rh' ≤ buf.length))
        let ps ← readShpLoop conv buf fuel (index + 1) rh'
        return p :: ps
    else .ok []

/-- load_shapefile.cc:45-104 `read_shapefile`: the polygons handed to the consumer, in order.
Simplification: when it throws, the polygons consumed before are not recorded. -/
def readShapefile (conv : Nat → Nat → XY) (buf : Bytes) : Res (List Polygon) := do
  let magic ← readIntBig buf 0
  verify (magic == 9994)
  let version ← readIntLittle buf 28
  verify (version == 1000)
  let type ← readIntLittle buf 32
  verify (type == 5)
  readShpLoop conv buf (buf.length + 1) 0 100

end Tiles
