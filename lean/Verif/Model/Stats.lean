import Verif.Model.FeatureIO
import Verif.Model.FeaturePack
import Verif.Model.PackFile
import Verif.Model.TileKey
/-
Model of /repo/src/db/database_stats.cc: the numbers that are collected and printed.  Left out: the LMDB page statistics (lines 57-62), the
formatting of numbers, and the double arithmetic (`sum` is accumulated in a double, exact below 2^53; the mean; the position of the
quantile is an input of `q95`).
-/
namespace Tiles

/-- database_stats.cc:66-68: the sizes found in features -/
structure FeatStats where
  headers : List Nat
  masks : List Nat
  geos : List Nat
deriving DecidableEq

/-- database_stats.cc:81-97: the fields of one feature; `fuel` = number of bytes.  The size of the header is measured from after its key to
after its payload.  `get_view` of a field that is not length-delimited is outside of protozero's contract (`ub`). -/
def featStatsLoop : Nat → Bytes → Res FeatStats
  | _, [] => .ok ⟨[], [], []⟩
  | 0, _ :: _ => .ub
  | fuel + 1, bs => do
    let (k, r0) ← decVarint bs
    let (f, r) ← decField bs
    let st ← featStatsLoop fuel r
    let tag := k % 2 ^ 32 / 8
    if tag = 1 then return { st with headers := (r0.length - r.length) :: st.headers }
    else if tag = 6 then
      match f with
      | .bytes _ d => return { st with masks := d.length :: st.masks }
      | _ => .ub
    else if tag = 7 then
      match f with
      | .bytes _ d => return { st with geos := d.length :: st.geos }
      | _ => .ub
    else return st

def featStats (bs : Bytes) : Res FeatStats := featStatsLoop bs.length bs

/-- database_stats.cc:79-98: the features of one pack -/
def featStatsAll : List Bytes → Res FeatStats
  | [] => .ok ⟨[], [], []⟩
  | s :: ss => do
    let a ← featStats s
    let b ← featStatsAll ss
    return ⟨a.headers ++ b.headers, a.masks ++ b.masks, a.geos ++ b.geos⟩

/-- database_stats.cc:64-68 -/
structure PackStats where
  packs : List Nat
  index : List Nat
  feats : FeatStats
deriving DecidableEq

/-- database_stats.cc:73-102: the records of one entry -/
def recordStats (crc : Bytes → UInt32) (pf : PackFile) : List PackRecord → Res PackStats
  | [] => .ok ⟨[], [], ⟨[], [], []⟩⟩
  | r :: rs => do
    let pack ← pf.get r
    verify (featurePackValid crc pack)
    let (ss, n) ← unpackFeatures pack
    let a ← featStatsAll ss
    let b ← recordStats crc pf rs
    return ⟨pack.length :: b.packs, (pack.length - n) :: b.index,
      ⟨a.headers ++ b.feats.headers, a.masks ++ b.feats.masks, a.geos ++ b.feats.geos⟩⟩

/-- database_stats.cc:70-103: the features table in key order -/
def entryStats (crc : Bytes → UInt32) (pf : PackFile) : List (UInt64 × Bytes) → Res PackStats
  | [] => .ok ⟨[], [], ⟨[], [], []⟩⟩
  | e :: es => do
    let rs ← packRecordsDeserialize e.2
    let a ← recordStats crc pf rs
    let b ← entryStats crc pf es
    return ⟨a.packs ++ b.packs, a.index ++ b.index,
      ⟨a.feats.headers ++ b.feats.headers, a.feats.masks ++ b.feats.masks, a.feats.geos ++ b.feats.geos⟩⟩

/-- database_stats.cc:120-128: the prepared tiles in key order, sorted into lists by zoom level -/
def tileStats (maxPrep : Nat) : List (UInt64 × Bytes) → List (List Nat) → Res (List (List Nat))
  | [], sizes => .ok sizes
  | e :: es, sizes => do
    let z := (keyToTile e.1).z
    verify (decide (z ≤ maxPrep))
    if z < sizes.length then tileStats maxPrep es (sizes.modify z (· ++ [e.2.length])) else .throw_

/-- what is printed: `tiles` is `none` for "no tiles prepared!" -/
structure DbStats where
  packs : PackStats
  tiles : Option (List (List Nat) × Nat)
deriving DecidableEq

/-- database_stats.cc:24-139 `database_stats`; `maxPrep` is the stored highest prepared zoom level -/
def databaseStats (crc : Bytes → UInt32) (features : List (UInt64 × Bytes)) (pf : PackFile) (maxPrep : Option Nat) (tiles : List (UInt64 × Bytes)) :
    Res DbStats := do
  let ps ← entryStats crc pf features
  match maxPrep with
  | none => return ⟨ps, none⟩
  | some m => do
    let sizes ← tileStats m tiles (List.replicate (m + 1) [])
    return ⟨ps, some (sizes, ps.packs.sum + (sizes.map List.sum).sum)⟩

/-- database_stats.cc:41-49: `m[m.size() * .95]` of the sorted sizes, at the position `pos` that the double is truncated to
(outside of the vector: undefined behaviour) -/
def q95 (m : List Nat) (pos : Nat) : Res Nat :=
  match m[pos]? with
  | some v => .ok v
  | none => .ub

end Tiles
