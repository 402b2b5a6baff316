import Verif.Model.Varint
import Verif.Proof.Varint
/-
Model of the plain feature pack: /repo/include/tiles/db/feature_pack.h:58-159 and
/repo/src/db/feature_pack.cc:33-55.

`crc` stands for boost::crc_32_type over a byte string; it is a parameter, the theorems hold for
every function.  Reading outside the string is `ub` (the code does not check it).
-/
namespace Tiles

/-- feature_pack.h:68-79 `finish_header` for the registered segment ids (ascending: `std::map`).
Offsets are zero until `update_segment_offset`. -/
def finishHeader (count : Nat) (segments : List UInt8) : Res Bytes := do
  verify (decide (count ≤ 2 ^ 32 - 1))
  return leBytes 4 count ++ leBytes 1 segments.length ++
    segments.flatMap (fun id => id :: leBytes 4 0)

/-- feature_pack.h:95-99 `append_feature` -/
def appendFeature (feature : Bytes) : Res Bytes := do
  verify (decide (feature.length ≥ 32))
  return encVarint feature.length ++ feature

/-- feature_pack.h:101-104 `append_span_end` -/
def spanEnd : Bytes := encVarint 0

/-- feature_pack.h:88-90, the loop of `append_features` -/
def appendFeatureList : List Bytes → Res Bytes
  | [] => .ok []
  | f :: fs => do
    let a ← appendFeature f
    let b ← appendFeatureList fs
    return a ++ b

/-- feature_pack.h:86-93 `append_features` (the bytes appended) -/
def appendFeatures (fs : List Bytes) : Res Bytes := do
  return (← appendFeatureList fs) ++ spanEnd

/-- feature_pack.cc:33-37 `finish`: the checksum of everything before, as uint32_t -/
def finishPack (crc : Bytes → UInt32) (buf : Bytes) : Bytes := buf ++ leBytes 4 (crc buf).toNat

/-- feature_pack.cc:39-47 `feature_pack_valid` -/
def featurePackValid (crc : Bytes → UInt32) (sv : Bytes) : Bool :=
  if sv.length < 4 then false
  else leNat (sv.drop (sv.length - 4)) == (crc (sv.take (sv.length - 4))).toNat

/-- feature_pack.cc:49-55 `pack_features(serialized_features)` -/
def packFeaturesPlain (crc : Bytes → UInt32) (fs : List Bytes) : Res Bytes := do
  let h ← finishHeader fs.length []
  let b ← appendFeatures fs
  return finishPack crc (h ++ b)

theorem decVarint_rest_lt {bs rest : Bytes} {v : Nat} (h : decVarint bs = .ok (v, rest)) :
    rest.length < bs.length := by
  obtain ⟨pre, h1, h2, _, _⟩ := decVarintGo_ok (by omega) (by decide) h
  rw [h1]; simp; omega

/-- feature_pack.h:151-154: read sizes, skipping zeros (span terminators). -/
def nextSize (bs : Bytes) : Res (Nat × Bytes) :=
  match h : decVarint bs with
  | .ok (0, rest) => nextSize rest
  | .ok (n + 1, rest) => .ok (n + 1, rest)
  | .throw_ => .throw_
  | .ub => .ub
  termination_by bs.length
  decreasing_by exact decVarint_rest_lt h

/-- feature_pack.h:150-157: read `n` features from the bytes after the header; yields the features
and the unread rest. -/
def unpackLoop : Nat → Bytes → Res (List Bytes × Bytes)
  | 0, bs => .ok ([], bs)
  | n + 1, bs => do
    let (size, bs) ← nextSize bs
    if size ≤ bs.length then
      let (fs, rest) ← unpackLoop n (bs.drop size)
      return (bs.take size :: fs, rest)
    else .ub

/-- feature_pack.h:142-159 `unpack_features(string, fn)`: the features passed to `fn` and the
returned distance. -/
def unpackFeatures (s : Bytes) : Res (List Bytes × Nat) := do
  verify (decide (s.length ≥ 5))
  let count := leNat (s.take 4)
  let segments := leNat ((s.drop 4).take 1)
  if (segments + 1) * 5 ≤ s.length then
    let (fs, rest) ← unpackLoop count (s.drop ((segments + 1) * 5))
    return (fs, s.length - rest.length)
  else .ub

end Tiles
