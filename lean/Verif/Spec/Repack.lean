import Verif.Model.Defrag
import Mathlib.Data.List.Forall2
/-! Layouts of records in a pack file. -/
namespace Tiles.Spec

/-- the bytes of all records together -/
def usedBytes (rs : List PackRecord) : Nat := (rs.map (·.size)).sum

/-- the records are inside the file, not empty, and no two of them overlap -/
structure Layout (pf : PackFile) (rs : List PackRecord) : Prop where
  wf : pf.WF
  inside : ∀ r ∈ rs, 0 < r.size ∧ r.endOffset ≤ pf.size
  apart : rs.Pairwise (fun a b => a.endOffset ≤ b.offset ∨ b.endOffset ≤ a.offset)

/-- the records are stacked downwards from `top`, the first one highest, without gaps -/
def Stacked : Nat → List PackRecord → Prop
  | _, [] => True
  | top, r :: rs => r.endOffset = top ∧ Stacked r.offset rs

/-- record `r` of the first file and `r'` of the second are readable and hold the same bytes -/
def SameBytes (pf pf' : PackFile) (r r' : PackRecord) : Prop := ∃ bs, pf.get r = .ok bs ∧ pf'.get r' = .ok bs ∧ r'.size = r.size

/-- the same tiles with the same number of records, each holding the same bytes -/
def SameTasks (pf pf' : PackFile) (ts ts' : List TileRecord) : Prop :=
  List.Forall₂ (fun t t' => t'.tile = t.tile ∧ List.Forall₂ (SameBytes pf pf') t.records t'.records) ts ts'

/-- the file is not empty and, beside the records, has space for all of them once more and for the largest of them -/
def Roomy (pf : PackFile) (rs : List PackRecord) : Prop := 0 < pf.size ∧ ∀ r ∈ rs, 2 * usedBytes rs + r.size ≤ pf.size

/-- the records follow each other without gaps from `a` to `b` -/
def Contig : Nat → List PackRecord → Nat → Prop
  | a, [], b => a = b
  | a, r :: rs, b => r.offset = a ∧ Contig r.endOffset rs b

end Tiles.Spec
