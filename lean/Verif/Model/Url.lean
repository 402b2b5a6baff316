import Verif.Model.Tile
/-
Model of the URL handling: /repo/include/tiles/parse_tile_url.h and `url_decode` of /repo/src/server.cc.

`char` values are octets.  `std::isdigit` is taken in the "C" locale and on octets (passing a negative
`char` to it is formally undefined behaviour; glibc answers "no digit", which is what is modelled).
-/
namespace Tiles

def kSlash : UInt8 := 47
def kPercent : UInt8 := 37
def kPlus : UInt8 := 43
def kSpace : UInt8 := 32

/-- `std::isdigit` -/
def isDigit (c : UInt8) : Bool := 48 ≤ c.toNat && c.toNat ≤ 57

/-- What is assumed about `utl::cstr::valid()` of tokens without characters; utl is not in the sandbox,
so the theorems are proved for every choice: an empty token between separators, and a token
after the end of the input. -/
structure CstrRules where
  emptyValid : Bool
  missingValid : Bool
  deriving DecidableEq, Repr

/-- a token of `utl::split<'/', ...>`: the characters up to the next separator, and the rest behind it
(`none` when the input is used up) -/
def splitTok : Option Bytes → Option Bytes × Option Bytes
  | none => (none, none)
  | some s => (some (s.takeWhile (· ≠ kSlash)),
      match s.dropWhile (· ≠ kSlash) with
      | [] => none
      | _ :: rest => some rest)

/-- parse_tile_url.h:23-28 for one token; returns its characters -/
def checkTok (v : CstrRules) : Option Bytes → Res Bytes
  | none => if v.missingValid then .ok [] else .throw_
  | some [] => if v.emptyValid then .ok [] else .throw_
  | some t => if t.all isDigit then .ok t else .throw_

/-- `utl::parse<std::uint32_t>` of a digit string: unsigned arithmetic wraps around -/
def parseU32 (s : Bytes) : Nat := s.foldl (fun a c => (a * 10 + (c.toNat - 48)) % 2 ^ 32) 0

/-- ".mvt" reversed -/
def kTvm : Bytes := [116, 118, 109, 46]

/-- parse_tile_url.h:14-42 `parse_tile_url`.  `url.c_str() + 4` is a C string: it ends at a zero byte.
The bindings of the code are named `z_rev, y_rev, x_rev` for the tokens y, x, z; the tile is built as
`{y, z, x}`, i.e. x = second, y = first, z = third token. -/
def parseTileUrl (v : CstrRules) (url : Bytes) : Res (Option Tile) :=
  let r := url.reverse
  if r.take 4 ≠ kTvm then .ok none
  else do
    let (t0, s1) := splitTok (some ((r.drop 4).takeWhile (· ≠ 0)))
    let (t1, s2) := splitTok s1
    let (t2, _) := splitTok s2
    let c0 ← checkTok v t0
    let c1 ← checkTok v t1
    let c2 ← checkTok v t2
    return some ⟨parseU32 c1.reverse, parseU32 c0.reverse, parseU32 c2.reverse⟩

/-- value of a hexadecimal digit -/
def hexDigit (c : UInt8) : Option Nat :=
  let n := c.toNat
  if 48 ≤ n ∧ n ≤ 57 then some (n - 48)
  else if 65 ≤ n ∧ n ≤ 70 then some (n - 55)
  else if 97 ≤ n ∧ n ≤ 102 then some (n - 87)
  else none

/-- `std::isspace` in the "C" locale -/
def isSpaceC (c : UInt8) : Bool := c.toNat = 32 || (9 ≤ c.toNat && c.toNat ≤ 13)

/-- server.cc:50-52: `is >> std::hex >> value` on the two characters `a b`, then the conversion to `char`.
The stream skips white space, takes an optional sign and hexadecimal digits, and stops at the first other
character; it fails without a digit.  ("0x" without digits fails, as in libstdc++.) -/
def hexStream (a b : UInt8) : Option UInt8 :=
  match hexDigit a with
  | some x => match hexDigit b with
    | some y => some (UInt8.ofNat (16 * x + y))
    | none => if x = 0 ∧ (b = 120 ∨ b = 88) then none else some (UInt8.ofNat x)
  | none =>
    if isSpaceC a || a = 43 then (hexDigit b).map UInt8.ofNat
    else if a = 45 then (hexDigit b).map (fun y => UInt8.ofNat (256 - y))
    else none

/-- server.cc:43-62 `url_decode` -/
def urlDecode : Bytes → Res Bytes
  | [] => .ok []
  | c :: rest =>
    if c = kPercent then
      match rest with
      | a :: b :: rest' => match hexStream a b with
        | some v => do
          let o ← urlDecode rest'
          return v :: o
        | none => .throw_
      | _ => .throw_
    else if c = kPlus then do
      let o ← urlDecode rest
      return kSpace :: o
    else do
      let o ← urlDecode rest
      return c :: o

end Tiles
