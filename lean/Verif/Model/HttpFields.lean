import Verif.Model.Server
import Mathlib.Data.Nat.Digits.Defs
/-
The response object of /repo/src/server.cc as the code builds it: field by field, in the order of the statements, keeping what was
set before when an exception leaves a handler.  (Model/Server gives the same answers as values; C60 shows that they agree.)
-/
namespace Tiles

inductive HField where
  | allowOrigin | allowHeaders | allowMethods | contentEncoding | contentType | contentLength
  deriving DecidableEq, Repr

/-- `response_t` -/
structure Msg where
  version : Nat               -- 11 = HTTP/1.1
  keepAlive : Bool
  status : Nat
  fields : List (HField × Bytes)
  body : Bytes
  deriving DecidableEq, Repr

/-- `res.set(field, value)`: replaces all fields of this name -/
def Msg.set (m : Msg) (f : HField) (v : Bytes) : Msg := { m with fields := m.fields.filter (fun e => e.1 ≠ f) ++ [(f, v)] }

def Msg.result (m : Msg) (status : Nat) : Msg := { m with status := status }

/-- what a handler does with the response: the message as it leaves it, and how it leaves (`true`/`false` returned, an exception) -/
abbrev Handler := Msg → Res Bool × Msg

/-- `std::string_view` comparison of a suffix, `boost::algorithm::ends_with` -/
def endsWith (s suffix : Bytes) : Bool := suffix.isSuffixOf s

/-- ".html", ".css", ".js" -/
def kHtml : Bytes := [46, 104, 116, 109, 108]
def kCss : Bytes := [46, 99, 115, 115]
def kJs : Bytes := [46, 106, 115]
/-- "text/html", "text/css", "text/javascript" -/
def kTextHtml : Bytes := [116, 101, 120, 116, 47, 104, 116, 109, 108]
def kTextCss : Bytes := [116, 101, 120, 116, 47, 99, 115, 115]
def kTextJs : Bytes := [116, 101, 120, 116, 47, 106, 97, 118, 97, 115, 99, 114, 105, 112, 116]

/-- server.cc:190-218 -/
def serveTileM (env : ServerEnv) (req : Req) : Handler := fun m =>
  match (do let url ← urlDecode req.target; parseTileUrl env.rules url : Res (Option Tile)) with
  | .throw_ => (.throw_, m)
  | .ub => (.ub, m)
  | .ok none => (.ok false, m)
  | .ok (some tile) =>
    if !containsSub kDeflate req.acceptEncoding then (.ok true, m.result 501)
    else match env.getTile tile with
      | .throw_ => (.throw_, m)
      | .ub => (.ub, m)
      | .ok (some body) => (.ok true, (({ m with body := body } : Msg).set .contentEncoding kDeflate).result 200)
      | .ok none => (.ok true, m.result 204)

/-- server.cc:220-238 -/
def serveGlyphsM (env : ServerEnv) (req : Req) : Handler := fun m =>
  match urlDecode req.target with
  | .throw_ => (.throw_, m)
  | .ub => (.ub, m)
  | .ok url => match matchRest kGlyphs url with
    | none => (.ok false, m)
    | some name => match env.glyphs name with
      | some b => (.ok true, ({ m with body := b } : Msg).result 200)
      | none => (.ok true, m.result 404)

/-- server.cc:271-279: the file was found -/
def serveFoundM (name : Bytes) (m : Msg) : Msg :=
  let m := m.result 200
  if endsWith name kHtml then m.set .contentType kTextHtml
  else if endsWith name kCss then m.set .contentType kTextCss
  else if endsWith name kJs then m.set .contentType kTextJs
  else m

/-- server.cc:260-282 -/
def serveResourceM (env : ServerEnv) (name : Bytes) (m : Msg) : Msg :=
  match env.resources name with
  | some b => serveFoundM name { m with body := b }
  | none => m.result 404

/-- server.cc:240-285 -/
def serveFileM (env : ServerEnv) (req : Req) : Handler := fun m =>
  match urlDecode req.target with
  | .throw_ => (.throw_, m)
  | .ub => (.ub, m)
  | .ok url =>
    let match_ := matchRest [kSlash] url
    if match_ = none ∧ req.target ≠ [kSlash] then (.ok false, m.result 404)
    else
      let name := match_.getD kIndexHtml
      if env.resDir ≠ [] then
        match env.fs (pathJoin env.resDir name) with
        | .file b => (.ok true, serveFoundM name { m with body := b })
        | .unreadable => (.throw_, m)
        | .missing => (.ok true, serveResourceM env name m)
      else (.ok true, serveResourceM env name m)

/-- `a || b` -/
def Handler.or (a b : Handler) : Handler := fun m =>
  match a m with
  | (.ok false, m') => b m'
  | r => r

/-- "*" -/
def kStar : Bytes := [42]
/-- "X-Requested-With, Content-Type, Accept, Authorization" -/
def kAllowHeaders : Bytes := [88, 45, 82, 101, 113, 117, 101, 115, 116, 101, 100, 45, 87, 105, 116, 104, 44, 32, 67, 111, 110, 116, 101,
  110, 116, 45, 84, 121, 112, 101, 44, 32, 65, 99, 99, 101, 112, 116, 44, 32, 65, 117, 116, 104, 111, 114, 105, 122, 97, 116, 105, 111, 110]
/-- "GET, POST, PUT, DELETE, OPTIONS, HEAD" -/
def kAllowMethods : Bytes := [71, 69, 84, 44, 32, 80, 79, 83, 84, 44, 32, 80, 85, 84, 44, 32, 68, 69, 76, 69, 84, 69, 44, 32, 79, 80, 84,
  73, 79, 78, 83, 44, 32, 72, 69, 65, 68]

/-- server.cc:298-302: `if (!(...)) { res.result(http::status::not_found); }` -/
def orNotFound : Res Bool × Msg → Res Bool × Msg
  | (.ok false, m) => (.ok true, m.result 404)
  | r => r

/-- server.cc:287-306, the callback -/
def serverCallbackM (env : ServerEnv) (req : Req) : Handler := fun m =>
  let m := ((m.set .allowOrigin kStar).set .allowHeaders kAllowHeaders).set .allowMethods kAllowMethods
  match req.method with
  | .options => (.ok true, m.result 204)
  | .get | .head =>
    orNotFound (Handler.or (serveTileM env req) (Handler.or (serveGlyphsM env req) (serveFileM env req)) m)
  | .other => (.ok true, m.result 405)

/-- `std::to_string` of an unsigned number -/
def toDec (n : Nat) : Bytes := if n = 0 then [48] else (Nat.digits 10 n).reverse.map (fun d => UInt8.ofNat (48 + d))

/-- server.cc:78-86: an exception becomes 500, then the length is set -/
def finishMsg : Res Bool × Msg → Res Msg
  | (.ub, _) => .ub
  | (.throw_, m) => .ok ((m.result 500).set .contentLength (toDec m.body.length))
  | (.ok _, m) => .ok (m.set .contentLength (toDec m.body.length))

/-- server.cc:73-86: the response to a request; the response object is fresh (status 200, no fields, empty body) -/
def respond (env : ServerEnv) (version : Nat) (req : Req) : Res Msg :=
  finishMsg (serverCallbackM env req ⟨version, false, 200, [], []⟩)

end Tiles
