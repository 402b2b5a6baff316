import Verif.Model.Url
/-
Model of the request handling of /repo/src/server.cc (boost beast, the sockets and the log are not modelled).
The tile lookup, the file system and the compiled-in resources are parameters.
-/
namespace Tiles

inductive Method where
  | options | get | head | other
  deriving DecidableEq, Repr

structure Req where
  method : Method
  target : Bytes
  acceptEncoding : Bytes        -- empty when the header is missing
  deriving Repr

/-- `response_t`: status, body, `content-encoding: deflate` set.  A fresh response has status 200. -/
structure Resp where
  status : Nat
  body : Bytes
  deflate : Bool
  deriving DecidableEq, Repr

/-- what `std::filesystem::exists` and `utl::mmap_reader` make of a path -/
inductive FsEntry where
  | missing
  | file (content : Bytes)
  | unreadable            -- exists, but opening it throws (a directory, no permission)
  deriving Repr

structure ServerEnv where
  rules : CstrRules
  getTile : Tile → Res (Option Bytes)
  resDir : Bytes
  fs : Bytes → FsEntry
  glyphs : Bytes → Option Bytes          -- `pbf_sdf_fonts_res::get_resource`, `none` = std::out_of_range
  resources : Bytes → Option Bytes       -- `tiles_server_res::get_resource`

/-- `string_view::find(needle) != npos` -/
def containsSub (needle : Bytes) : Bytes → Bool
  | [] => needle.isEmpty
  | c :: s => needle.isPrefixOf (c :: s) || containsSub needle s

def kDeflate : Bytes := [100, 101, 102, 108, 97, 116, 101]

/-- server.cc:190-218 `maybe_serve_tile`; `none` = returned false -/
def maybeServeTile (env : ServerEnv) (req : Req) : Res (Option Resp) := do
  let url ← urlDecode req.target
  let m ← parseTileUrl env.rules url
  match m with
  | none => return none
  | some tile =>
    if !containsSub kDeflate req.acceptEncoding then return some ⟨501, [], false⟩
    else do
      let r ← env.getTile tile
      match r with
      | some body => return some ⟨200, body, true⟩
      | none => return some ⟨204, [], false⟩

/-- util.cc:28-38 with the pattern `^<prefix>(.+)$`: `.` matches everything but line terminators. -/
def matchRest (pre : Bytes) (url : Bytes) : Option Bytes :=
  if pre.isPrefixOf url then
    let rest := url.drop pre.length
    if rest ≠ [] ∧ rest.all (fun c => c ≠ 10 && c ≠ 13) then some rest else none
  else none

/-- "/glyphs/" -/
def kGlyphs : Bytes := [47, 103, 108, 121, 112, 104, 115, 47]

/-- server.cc:220-238 `maybe_serve_glyphs` -/
def maybeServeGlyphs (env : ServerEnv) (req : Req) : Res (Option Resp) := do
  let url ← urlDecode req.target
  match matchRest kGlyphs url with
  | none => return none
  | some name => match env.glyphs name with
    | some b => return some ⟨200, b, false⟩
    | none => return some ⟨404, [], false⟩

/-- `std::filesystem::path::operator/` on POSIX -/
def pathJoin (dir name : Bytes) : Bytes :=
  if name.head? = some kSlash then name
  else if dir = [] ∨ dir.getLast? = some kSlash then dir ++ name
  else dir ++ [kSlash] ++ name

/-- "index.html" -/
def kIndexHtml : Bytes := [105, 110, 100, 101, 120, 46, 104, 116, 109, 108]

/-- server.cc:260-282: the compiled-in resource or 404 -/
def serveResource (env : ServerEnv) (name : Bytes) : Res (Option Resp) :=
  match env.resources name with
  | some b => .ok (some ⟨200, b, false⟩)
  | none => .ok (some ⟨404, [], false⟩)

/-- server.cc:240-285 `maybe_serve_file` (the content types are left out); a response is always returned
except for `return false`, where the caller sets 404. -/
def maybeServeFile (env : ServerEnv) (req : Req) : Res (Option Resp) := do
  let url ← urlDecode req.target
  let m := matchRest [kSlash] url
  if m = none ∧ req.target ≠ [kSlash] then return none
  else
    let name := m.getD kIndexHtml
    if env.resDir ≠ [] then
      match env.fs (pathJoin env.resDir name) with
      | .file b => return some ⟨200, b, false⟩
      | .unreadable => .throw_
      | .missing => serveResource env name
    else serveResource env name

/-- `a || b` of the handlers -/
def orElseHandler (a b : Res (Option Resp)) : Res (Option Resp) := do
  let r ← a
  match r with
  | some x => return some x
  | none => b

/-- server.cc:287-306, the callback -/
def serverCallback (env : ServerEnv) (req : Req) : Res Resp :=
  match req.method with
  | .options => .ok ⟨204, [], false⟩
  | .get | .head => do
    let r ← orElseHandler (maybeServeTile env req) (orElseHandler (maybeServeGlyphs env req) (maybeServeFile env req))
    return r.getD ⟨404, [], false⟩
  | .other => .ok ⟨405, [], false⟩

/-- server.cc:73-86: every exception becomes 500.  (No handler sets the body before it can throw.) -/
def handleRequest (env : ServerEnv) (req : Req) : Res Resp :=
  match serverCallback env req with
  | .throw_ => .ok ⟨500, [], false⟩
  | r => r

end Tiles
