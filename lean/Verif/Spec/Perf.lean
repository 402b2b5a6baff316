import Verif.Model.GetTileSeq
/-! What the measurements of tile requests should say. -/
namespace Tiles.Spec

/-- the request is answered from the prepared tiles, or by an empty or sea tile if there is none -/
def wantsPrepared (c : TileCall) : Bool := decide (c.ctx.ignorePrepared = false ∧ (c.tile.z : Int) ≤ c.ctx.maxPrepared)

/-- the stored features that the request looks at -/
def offered (c : TileCall) : List Bytes :=
  if wantsPrepared c then [] else match packsOf c.features c.pf c.tile with
    | .ok ps => ps.flatMap fun p => match unpackTile p.1 p.2 c.tile with
      | .ok ss => ss
      | _ => []
    | _ => []

/-- the stored feature is drawn -/
def isKept (c : TileCall) (s : Bytes) : Bool := match deserializeFeature c.ctx.rd c.ctx.dec s (drawBounds c.tile) c.tile.z with
  | .ok (some _) => true
  | _ => false

/-- the stored feature is skipped: not in the tile or not on the zoom level -/
def isSkipped (c : TileCall) (s : Bytes) : Bool := match deserializeFeature c.ctx.rd c.ctx.dec s (drawBounds c.tile) c.tile.z with
  | .ok none => true
  | _ => false

/-- the request is answered from the table of prepared tiles -/
def fromTable (c : TileCall) : Bool := wantsPrepared c && (match keyOfTile c.tile with | .ok k => (c.tiles k).isSome | _ => false)

/-- the size of the answer, if the request drew one -/
def drawnSize (c : TileCall) : Option Nat :=
  match getTile c.tiles c.features c.pf c.ctx c.tile with
  | .ok (some b) => if fromTable c then none else some b.length
  | _ => none

/-- the calls on the counter during a session, each with the time at which the counter reads its clock; requests that fail are over when they fail -/
def Session (calls : List TileCall) (l : List (Int × PerfOp)) : Prop := l.map Prod.snd = calls.flatMap fun c => c.run.ops

/-- a clock that never goes back, with times that fit the clock's type -/
def Steady (l : List (Int × PerfOp)) : Prop := l.Pairwise (fun a b => a.1 ≤ b.1) ∧ ∀ a ∈ l, 0 ≤ a.1 ∧ a.1 < 2 ^ 63

end Tiles.Spec
