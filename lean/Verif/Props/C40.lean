import Verif.Model.OsmGeometry
/-! C40 — OSM geometries convert ring by ring.  The statement about degenerate inner rings is false for the code:
a short inner ring is kept with its last point removed, and an inner ring without any valid node is undefined behaviour. -/
namespace Tiles
variable {L : Type}

namespace Spec

/-- the points of the nodes that have a location -/
def points (conv : L → XY) (nodes : List (Option L)) : List XY := nodes.filterMap (Option.map conv)

/-- a ring: its points, with the first one repeated at the end if the last one differs -/
def ring (conv : L → XY) (nodes : List (Option L)) : List XY :=
  let p := points conv nodes
  if p.head? = p.getLast? then p else p ++ p.head?.toList

/-- an area as OSM sees it: outer rings with their inner rings -/
structure Part (L : Type) where
  outer : List (Option L)
  inners : List (List (Option L))

/-- the items of an area: each outer ring followed by its inner rings; other items (tags) are `other` -/
def items (parts : List (Part L)) : List (AreaItem L) :=
  parts.flatMap (fun p => .outer p.outer :: p.inners.map .inner)

def isRing : AreaItem L → Bool
  | .other => false
  | _ => true

end Spec
open Spec

/-- full property: outer rings with at least three points, each with its inner rings of at least three points -/
def C40_full : Prop := ∀ (L : Type) (conv : L → XY) (parts : List (Part L)),
  (∀ p ∈ parts, 3 ≤ (ring conv p.outer).length) → parts ≠ [] →
  readOsmArea conv (items parts) = .ok (.polygon (parts.map (fun p =>
    ⟨ring conv p.outer, (p.inners.map (ring conv)).filter (fun r => 3 ≤ r.length)⟩)))

theorem nodesToFixed_eq (conv : L → XY) (ns : List (Option L)) : nodesToFixed conv ns = points conv ns := by
  induction ns with
  | nil => rfl
  | cons a ns ih => cases a <;> simp [nodesToFixed, points, ih] <;> simpa [points] using ih

theorem closeRing_eq (r : List XY) : closeRing r = if r.head? = r.getLast? then r else r ++ r.head?.toList := by
  cases h : r with
  | nil => rfl
  | cons a l =>
    have : (a :: l).getLast? = some ((a :: l).getLast (by simp)) := List.getLast?_eq_some_getLast _
    simp only [closeRing, List.head?_cons, this]
    by_cases hh : a = (a :: l).getLast (by simp)
    · rw [if_pos hh, if_pos (by rw [← hh])]
    · rw [if_neg hh, if_neg (fun e => hh (by injection e))]; rfl

theorem ring_eq (conv : L → XY) (ns : List (Option L)) : closeRing (nodesToFixed conv ns) = ring conv ns := by
  rw [closeRing_eq, nodesToFixed_eq]; rfl

/-- nodes: a point with exactly the converted location; without a valid location null -/
theorem C40_node (conv : L → XY) (loc : Option L) :
    readOsmNode conv loc = match loc with | none => .null | some l => .point [conv l] := by
  cases loc <;> rfl

/-- ways: the converted valid locations in order, null with fewer than two -/
theorem C40_way (conv : L → XY) (nodes : List (Option L)) :
    readOsmWay conv nodes = if (points conv nodes).length < 2 then .null else .polyline [points conv nodes] := by
  simp [readOsmWay, nodesToFixed_eq]

/-- what the code makes of an inner ring: a ring of one or two points loses one, an empty one is undefined -/
def innerResult (conv : L → XY) (ns : List (Option L)) : Res Line :=
  if 3 ≤ (ring conv ns).length then .ok (ring conv ns)
  else if ring conv ns = [] then .ub else .ok (ring conv ns).dropLast

theorem readInner_eq (conv : L → XY) (ns : List (Option L)) : readInner conv ns = innerResult conv ns := by
  simp only [readInner, innerResult, ring_eq]
  by_cases h : 3 ≤ (ring conv ns).length
  · rw [if_neg (by omega), if_pos h]
  · rw [if_pos (by omega), if_neg h]
    by_cases h2 : ring conv ns = [] <;> simp [h2]

/-- items that are no rings do not matter -/
theorem readAreaLoop_filter (conv : L → XY) (its : List (AreaItem L)) (acc : List Polygon) :
    readAreaLoop conv acc its = readAreaLoop conv acc (its.filter isRing) := by
  induction its generalizing acc with
  | nil => rfl
  | cons a its ih =>
    cases a with
    | other => simp [readAreaLoop, isRing, ih]
    | outer ns =>
      have e : (AreaItem.outer ns :: its).filter isRing = .outer ns :: its.filter isRing := rfl
      rw [e]; simp only [readAreaLoop, ih]
    | inner ns =>
      have e : (AreaItem.inner ns :: its).filter isRing = .inner ns :: its.filter isRing := rfl
      rw [e]; simp only [readAreaLoop, ih]

theorem C40_other_items_ignored (conv : L → XY) (its : List (AreaItem L)) :
    readOsmArea conv its = readOsmArea conv (its.filter isRing) := by
  rw [readOsmArea, readAreaLoop_filter]; rfl

theorem readAreaLoop_inners (conv : L → XY) (acc : List Polygon) (o : Line) (ins : List Line)
    (inners : List (List (Option L))) (rest : List (AreaItem L))
    (h : ∀ r ∈ inners, 3 ≤ (ring conv r).length) :
    readAreaLoop conv (acc ++ [⟨o, ins⟩]) (inners.map .inner ++ rest) =
      readAreaLoop conv (acc ++ [⟨o, ins ++ inners.map (ring conv)⟩]) rest := by
  induction inners generalizing ins with
  | nil => simp
  | cons r rs ih =>
    have h1 : readInner conv r = .ok (ring conv r) := by
      rw [readInner_eq, innerResult, if_pos (h r (by simp))]
    simp only [List.map_cons, List.cons_append, readAreaLoop, List.getLast?_concat, h1, Res.ok_bind,
      List.dropLast_concat]
    rw [ih _ (fun x hx => h x (by simp [hx]))]
    simp

theorem readAreaLoop_parts (conv : L → XY) (parts : List (Part L)) (acc : List Polygon)
    (rest : List (AreaItem L))
    (h : ∀ p ∈ parts, 3 ≤ (ring conv p.outer).length ∧ ∀ r ∈ p.inners, 3 ≤ (ring conv r).length) :
    readAreaLoop conv acc (items parts ++ rest) =
      readAreaLoop conv (acc ++ parts.map (fun p => ⟨ring conv p.outer, p.inners.map (ring conv)⟩)) rest := by
  induction parts generalizing acc with
  | nil => simp [items]
  | cons p ps ih =>
    have hp := h p (by simp)
    have e : items (p :: ps) ++ rest = .outer p.outer :: (p.inners.map .inner ++ (items ps ++ rest)) := by
      simp [items]
    rw [e]
    simp only [readAreaLoop, ring_eq]
    rw [if_neg (by omega), readAreaLoop_inners conv acc _ [] _ _ hp.2, ih _ (fun q hq => h q (by simp [hq]))]
    simp

/-- areas whose rings all have at least three points: exactly these rings, in order.
(Missing from the full property: areas with a degenerate inner ring, where the code differs, see below.) -/
theorem C40_area_partial (conv : L → XY) (parts : List (Part L)) (hne : parts ≠ [])
    (h : ∀ p ∈ parts, 3 ≤ (ring conv p.outer).length ∧ ∀ r ∈ p.inners, 3 ≤ (ring conv r).length) :
    readOsmArea conv (items parts) =
      .ok (.polygon (parts.map (fun p => ⟨ring conv p.outer, p.inners.map (ring conv)⟩))) := by
  have := readAreaLoop_parts conv parts [] [] h
  rw [List.append_nil] at this
  rw [readOsmArea, this]
  cases parts with
  | nil => exact absurd rfl hne
  | cons p ps => simp [readAreaLoop]

/-- an outer ring with fewer than three points makes the whole area null, whatever follows it -/
theorem C40_short_outer_null (conv : L → XY) (parts : List (Part L)) (o : List (Option L)) (rest : List (AreaItem L))
    (h : ∀ p ∈ parts, 3 ≤ (ring conv p.outer).length ∧ ∀ r ∈ p.inners, 3 ≤ (ring conv r).length)
    (ho : (ring conv o).length < 3) :
    readOsmArea conv (items parts ++ .outer o :: rest) = .ok .null := by
  rw [readOsmArea, readAreaLoop_parts conv parts [] _ h]
  simp [readAreaLoop, ring_eq, ho]

/-- no ring at all: null -/
theorem C40_no_rings_null (conv : L → XY) (its : List (AreaItem L)) (h : its.filter isRing = []) :
    readOsmArea conv its = .ok .null := by
  rw [C40_other_items_ignored, h]; rfl

/-- an inner ring before any outer ring is refused -/
theorem C40_inner_first_throws (conv : L → XY) (r : List (Option L)) (its : List (AreaItem L)) :
    readOsmArea conv (.inner r :: its) = .throw_ := rfl

/-- finding: an inner ring that closes to two points is not dropped: it stays with one point -/
theorem C40_short_inner_kept (conv : L → XY) (o r : List (Option L)) (ho : 3 ≤ (ring conv o).length)
    (hr : (ring conv r).length < 3) (hne : ring conv r ≠ []) :
    readOsmArea conv [.outer o, .inner r] = .ok (.polygon [⟨ring conv o, [(ring conv r).dropLast]⟩]) := by
  have h1 : readInner conv r = .ok (ring conv r).dropLast := by
    rw [readInner_eq, innerResult, if_neg (by omega), if_neg hne]
  have h2 : ¬ (ring conv o).length < 3 := by omega
  simp [readOsmArea, readAreaLoop, ring_eq, h1, h2]

/-- finding: an inner ring without valid nodes is undefined behaviour (`pop_back` on an empty vector) -/
theorem C40_empty_inner_ub (conv : L → XY) (o r : List (Option L)) (its : List (AreaItem L))
    (ho : 3 ≤ (ring conv o).length) (hr : ∀ n ∈ r, n = none) :
    readOsmArea conv (.outer o :: .inner r :: its) = .ub := by
  have hp : points conv r = [] := by
    rw [points, List.filterMap_eq_nil_iff]
    intro a ha; rw [hr a ha]; rfl
  have h1 : readInner conv r = .ub := by
    rw [readInner_eq, innerResult]; simp [ring, hp]
  have h2 : ¬ (ring conv o).length < 3 := by omega
  simp [readOsmArea, readAreaLoop, ring_eq, h1, h2]

/-- the full property is false for the code -/
theorem C40_full_refuted : ¬ C40_full := by
  intro h
  have := h XY id [⟨[some ⟨0,0⟩, some ⟨4,0⟩, some ⟨4,4⟩], [[some ⟨1,1⟩]]⟩] (by simp [ring, points]) (by simp)
  revert this
  decide

/-- hypotheses of the area theorem met: two parts, one with a hole, invalid nodes skipped, rings closed -/
example : readOsmArea (fun x : XY => x) (items
    [⟨[some ⟨0,0⟩, none, some ⟨9,0⟩, some ⟨9,9⟩], [[some ⟨1,1⟩, some ⟨2,1⟩, some ⟨2,2⟩, some ⟨1,1⟩]]⟩,
     ⟨[some ⟨20,0⟩, some ⟨30,0⟩, some ⟨30,9⟩], []⟩]) =
    .ok (.polygon [⟨[⟨0,0⟩, ⟨9,0⟩, ⟨9,9⟩, ⟨0,0⟩], [[⟨1,1⟩, ⟨2,1⟩, ⟨2,2⟩, ⟨1,1⟩]]⟩,
      ⟨[⟨20,0⟩, ⟨30,0⟩, ⟨30,9⟩, ⟨20,0⟩], []⟩]) := by decide

end Tiles
