import Verif.Model.Basic
/-
Varints as used by /repo/src/db/feature_pack.cc, include/tiles/db/feature_pack.h:95-112,153,175,186,
src/osm/hybrid_node_idx.cc and (through protozero's pbf classes) all serializers.
The codec itself is protozero's varint.hpp (external, not in /repo), modelled from its source:

* `write_varint`: 7 bits per byte, low bits first, high bit = continuation.
* `decode_varint`: at most ten bytes, the tenth contributes one bit; a continuation bit in the tenth
  byte throws varint_too_long_exception; running into `end` throws end_of_buffer_exception.
* `encode_zigzag64` / `decode_zigzag64`, `encode_zigzag32` stated arithmetically.
-/
namespace Tiles

/-- protozero `write_varint` -/
def encVarint (v : Nat) : Bytes :=
  if v < 128 then [UInt8.ofNat v]
  else UInt8.ofNat (v % 128 + 128) :: encVarint (v / 128)
  termination_by v
  decreasing_by omega

/-- protozero `decode_varint`, at byte number `i` with `acc` decoded so far.
Returns the value and the remaining input (the advanced pointer). -/
def decVarintGo (i acc : Nat) : Bytes → Res (Nat × Bytes)
  | [] => .throw_
  | b :: bs =>
    if i = 9 then
      if b.toNat < 128 then .ok (acc + b.toNat % 2 * 2 ^ 63, bs) else .throw_
    else
      if b.toNat < 128 then .ok (acc + b.toNat * 2 ^ (7 * i), bs)
      else decVarintGo (i + 1) (acc + b.toNat % 128 * 2 ^ (7 * i)) bs

/-- protozero `decode_varint(&ptr, end)` on the bytes between `ptr` and `end` -/
def decVarint (bs : Bytes) : Res (Nat × Bytes) := decVarintGo 0 0 bs

/-- protozero `encode_zigzag64` on an int64_t -/
def zigzag (v : Int) : Nat := if 0 ≤ v then (2 * v).toNat else (-2 * v - 1).toNat

/-- protozero `decode_zigzag64` -/
def unzigzag (n : Nat) : Int := if n % 2 = 0 then (n / 2 : Nat) else -((n / 2 : Nat) : Int) - 1

end Tiles
