import Verif.Model.Varint
/-
The protocol buffer wire format as written by protozero's `pbf_builder`/`pbf_writer` and read by `pbf_message`/
`pbf_reader` (external library, modelled from its source).  A message is a list of fields.

Reading: `next()` reads a 32-bit key varint, throws for tag 0, the reserved tags 19000-19999 and wire types other than
0, 1, 2, 5; payloads are taken from the buffer or end_of_buffer_exception is thrown.
Simplification: the reader of the code skips or reads field by field; the model first splits the whole message
into fields, so a malformed later field is noticed before an earlier one is processed (only the moment of the throw differs).
-/
namespace Tiles

inductive PbfField where
  | varint (tag value : Nat)
  | fixed64 (tag value : Nat)
  | bytes (tag : Nat) (data : Bytes)
  | fixed32 (tag value : Nat)
  deriving DecidableEq, Repr

/-- `pbf_writer::add_varint / add_fixed / add_bytes`: key, then payload -/
def PbfField.enc : PbfField → Bytes
  | .varint t v => encVarint (8 * t) ++ encVarint v
  | .fixed64 t v => encVarint (8 * t + 1) ++ leBytes 8 v
  | .bytes t d => encVarint (8 * t + 2) ++ (encVarint d.length ++ d)
  | .fixed32 t v => encVarint (8 * t + 5) ++ leBytes 4 v

def encMessage (fs : List PbfField) : Bytes := fs.flatMap PbfField.enc

/-- take exactly `n` bytes or throw end_of_buffer_exception -/
def takeN (n : Nat) (bs : Bytes) : Res (Bytes × Bytes) :=
  if n ≤ bs.length then .ok (bs.take n, bs.drop n) else .throw_

/-- `pbf_reader::next()` and the payload -/
def decField (bs : Bytes) : Res (PbfField × Bytes) := do
  let (k, r) ← decVarint bs
  let k := k % 2 ^ 32
  let tag := k / 8
  if tag = 0 ∨ (19000 ≤ tag ∧ tag ≤ 19999) then .throw_
  else if k % 8 = 0 then do
    let (v, r) ← decVarint r
    return (.varint tag v, r)
  else if k % 8 = 1 then do
    let (d, r) ← takeN 8 r
    return (.fixed64 tag (leNat d), r)
  else if k % 8 = 2 then do
    let (n, r) ← decVarint r
    let (d, r) ← takeN (n % 2 ^ 32) r
    return (.bytes tag d, r)
  else if k % 8 = 5 then do
    let (d, r) ← takeN 4 r
    return (.fixed32 tag (leNat d), r)
  else .throw_

/-- all fields of a message; `fuel` = number of bytes, each field takes at least one -/
def decMessageGo : Nat → Bytes → Res (List PbfField)
  | _, [] => .ok []
  | 0, _ :: _ => .ub
  | fuel + 1, bs => do
    let (f, r) ← decField bs
    let fs ← decMessageGo fuel r
    return f :: fs

def decMessage (bs : Bytes) : Res (List PbfField) := decMessageGo bs.length bs

/-- `pbf_writer::add_packed_*` writes nothing for an empty range -/
def packedField (tag : Nat) (vs : List Nat) : List PbfField :=
  if vs = [] then [] else [.bytes tag (vs.flatMap encVarint)]

/-- iterating over a packed varint field; `fuel` = number of bytes -/
def decPackedGo : Nat → Bytes → Res (List Nat)
  | _, [] => .ok []
  | 0, _ :: _ => .ub
  | fuel + 1, bs => do
    let (v, r) ← decVarint bs
    let vs ← decPackedGo fuel r
    return v :: vs

def decPacked (bs : Bytes) : Res (List Nat) := decPackedGo bs.length bs

end Tiles
