import Verif.Model.HttpFields
import Verif.Model.PerfCounter
import Verif.Model.Stats
/-
Model of the figures that the programs print: /repo/include/tiles/util.h:105-207 (`printable_num`, `printable_ns`, `printable_bytes`),
src/perf_counter.cc:15-57 (`print`, `perf_report_get_tile`) and src/db/database_stats.cc:33-49, 105-138 (`print_sizes` and the payload part of the report).

Parameters: `fl` rounds the exact result of an operation to a `double`; `near` is how the library fmt rounds to the last digit that is shown
(`{:.2f}`); `short` is the text of a double for `{}`, without blanks.
Simplification: doubles are rational numbers (no NaN, no infinity, no negative zero: all figures are counts, sizes and durations).  A division by a
power of two is exact.  Left out: the LMDB page statistics (database_stats.cc:25-31, 57-62).
-/
namespace Tiles

/-- `{:>w}`: blanks in front -/
def padLeft (w : Nat) (s : Bytes) : Bytes := List.replicate (w - s.length) 32 ++ s

/-- `{:<w}`: blanks behind -/
def padRight (w : Nat) (s : Bytes) : Bytes := s ++ List.replicate (w - s.length) 32

/-- `{:0>w}` of a number -/
def padZero (w n : Nat) : Bytes := List.replicate (w - (toDec n).length) 48 ++ toDec n

/-- `{:.df}` of a number that is not negative -/
def fixedText (near : ℚ → Nat) (d : Nat) (q : ℚ) : Bytes :=
  let n := near (q * 10 ^ d)
  toDec (n / 10 ^ d) ++ [46] ++ padZero d (n % 10 ^ d)

/-- util.h:138-153 `printable_num` -/
def printableNum (fl : ℚ → ℚ) (near : ℚ → Nat) (short : ℚ → Bytes) (n : ℚ) : Bytes :=
  let k := fl (n / 1000)
  let m := fl (n / 1000000)
  let g := fl (n / 1000000000)
  if n < 1000 then padLeft 6 (short n) ++ [32]
  else if k < 1000 then padLeft 6 (fixedText near 1 k) ++ [75]
  else if m < 1000 then padLeft 6 (fixedText near 1 m) ++ [77]
  else padLeft 6 (fixedText near 1 g) ++ [71]

/-- util.h:163-178 `printable_ns`; the micro sign is two bytes long -/
def printableNs (fl : ℚ → ℚ) (near : ℚ → Nat) (n : ℚ) : Bytes :=
  let mys := fl (n / 1000)
  let ms := fl (n / 1000000)
  let s := fl (n / 1000000000)
  if n < 1000 then padLeft 7 (fixedText near 3 n) ++ [110, 115]
  else if mys < 1000 then padLeft 7 (fixedText near 3 mys) ++ [194, 181, 115]
  else if ms < 1000 then padLeft 7 (fixedText near 3 ms) ++ [109, 115]
  else padLeft 7 (fixedText near 3 s) ++ [115, 32]

/-- util.h:188-203 `printable_bytes` -/
def printableBytes (near : ℚ → Nat) (n : ℚ) : Bytes :=
  let k := n / 1024
  let m := n / (1024 * 1024)
  let g := n / (1024 * 1024 * 1024)
  if n < 1024 then padLeft 7 (fixedText near 2 n) ++ [66, 32]
  else if k < 1024 then padLeft 7 (fixedText near 2 k) ++ [75, 66]
  else if m < 1024 then padLeft 7 (fixedText near 2 m) ++ [77, 66]
  else padLeft 7 (fixedText near 2 g) ++ [71, 66]

/-- perf_counter.cc:17, database_stats.cc:34 `std::accumulate(begin(m), end(m), 0.)` -/
def sumDoubles (fl : ℚ → ℚ) (m : List Nat) : ℚ := m.foldl (fun (a : ℚ) (x : Nat) => fl (a + fl x)) 0

/-- the text " > cnt: " -/
def txtCnt : Bytes := " > cnt: ".toUTF8.data.toList
/-- the text " sum: " -/
def txtSum : Bytes := " sum: ".toUTF8.data.toList
/-- the text "mean: " -/
def txtMean : Bytes := "mean: ".toUTF8.data.toList
/-- the text " q95: " -/
def txtQ95 : Bytes := " q95: ".toUTF8.data.toList
/-- the text " max: " -/
def txtMax : Bytes := " max: ".toUTF8.data.toList

/-- perf_counter.cc:15-29 `print` and database_stats.cc:33-49 `print_sizes`: one line.  `gap` is the text between the sum and "mean: " (one blank in the
first, nothing in the second), `w` the width of the label (18 and 16), `num` and `show` the formats of numbers and of figures. -/
def reportLine (fl : ℚ → ℚ) (num shw : ℚ → Bytes) (w : Nat) (gap label : Bytes) (m : List Nat) : Res Bytes :=
  let sum := sumDoubles fl m
  let head := padRight w label ++ txtCnt ++ num (fl m.length) ++ txtSum ++ shw sum
  if m = [] then .ok (head ++ [10])
  else do
    let (n, q, b) ← perfReport fl m
    .ok (head ++ gap ++ txtMean ++ shw (fl (sum / fl n)) ++ txtQ95 ++ shw (fl q) ++ txtMax ++ shw (fl b) ++ [10])

/-- the lines of the report of the performance counter, perf_counter.cc:31-57: the label, the task, and whether its values are durations -/
def perfLines : List (String × PerfTask × Bool) :=
  [(" RESULT: SIZE", .resultSize, false), (" GET: TOTAL", .total, true), (" GET: FETCH", .fetch, true), (" GET: RENDER", .render, true),
   (" GET: COMPRESS", .compress, true), ("RNDR: FIND SEASIDE", .findSeaside, true), ("RNDR: ADD SEASIDE", .addSeaside, true),
   ("RNDR: QUERY FEAT", .query, true), ("RNDR: ITER FEAT", .iter, true), ("RNDR: DESER OKAY", .deserOkay, true),
   ("RNDR: DESER SKIP", .deserSkip, true), ("RNDR: ADD FEAT", .add, true), ("RNDR: FINISH", .finish, true)]

/-- statements one after the other, each printing something -/
def printAll : List (Res Bytes) → Res Bytes
  | [] => .ok []
  | r :: rs => do
    let a ← r
    let b ← printAll rs
    return a ++ b

/-- perf_counter.cc:31-57 `perf_report_get_tile` -/
def perfText (fl : ℚ → ℚ) (near : ℚ → Nat) (short : ℚ → Bytes) (p : Perf) : Res Bytes :=
  printAll (perfLines.map fun l =>
    reportLine fl (printableNum fl near short) (if l.2.2 then printableNs fl near else printableBytes near) 18 [32] l.1.toUTF8.data.toList (p.finished l.2.1))

/-- database_stats.cc:33-49 `print_sizes` -/
def sizesLine (fl : ℚ → ℚ) (near : ℚ → Nat) (short : ℚ → Bytes) (label : Bytes) (m : List Nat) : Res Bytes :=
  reportLine fl (printableNum fl near short) (printableBytes near) 16 [] label m

/-- database_stats.cc:131: the label of the line of a zoom level -/
def tilesLabel (z : Nat) : Bytes := "tiles[z=".toUTF8.data.toList ++ padZero 2 z ++ [93]

/-- database_stats.cc:105-138: the report, from ">> payload stats:" on -/
def statsText (fl : ℚ → ℚ) (near : ℚ → Nat) (short : ℚ → Bytes) (st : DbStats) : Res Bytes :=
  printAll ([.ok (">> payload stats:\n".toUTF8.data.toList),
    sizesLine fl near short "pack".toUTF8.data.toList st.packs.packs,
    sizesLine fl near short "pack: index".toUTF8.data.toList st.packs.index,
    sizesLine fl near short "feature: header".toUTF8.data.toList st.packs.feats.headers,
    sizesLine fl near short "feature: masks".toUTF8.data.toList st.packs.feats.masks,
    sizesLine fl near short "feature: geo".toUTF8.data.toList st.packs.feats.geos] ++
    match st.tiles with
    | none => [.ok "no tiles prepared!\n".toUTF8.data.toList]
    | some (sizes, total) =>
      sizes.zipIdx.map (fun p => sizesLine fl near short (tilesLabel p.2) p.1) ++
      [.ok "====\n".toUTF8.data.toList, .ok ("total: ".toUTF8.data.toList ++ printableBytes near (fl total)), .ok [10, 10]])

end Tiles
