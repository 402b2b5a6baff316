import Verif.Props.C49
import Verif.Spec.Coastline
/-! C29, C49 — the area of a tile and the square that is drawn for the sea, in numbers. -/
namespace Tiles
open Spec

theorem pow_area {z : Nat} (hz : z ≤ 20) : (4096 : Int) * 2 ^ (20 - z) = 2 ^ (32 - z) := by
  rw [show (4096 : Int) = 2 ^ 12 from rfl, ← pow_add]
  congr 1
  omega

/-- A tile of zoom level `z` is a square with sides of 2^(32-z) units; it is drawn with a margin of 4096 units on each side (at every zoom
level).  `Shows` (C49) says a feature is drawn if its box meets the square with the margin. -/
theorem C49_area (q : Tile) (hz : q.z ≤ 20) (p : Pt) :
    (InBox (insertBounds q) p ↔ ((q.x * 2 ^ (32 - q.z) : ℤ) : ℚ) ≤ p.1 ∧ p.1 ≤ (((q.x + 1) * 2 ^ (32 - q.z) : ℤ) : ℚ) ∧
      ((q.y * 2 ^ (32 - q.z) : ℤ) : ℚ) ≤ p.2 ∧ p.2 ≤ (((q.y + 1) * 2 ^ (32 - q.z) : ℤ) : ℚ)) ∧
    (InBox (drawBounds q) p ↔ ((q.x * 2 ^ (32 - q.z) - 4096 : ℤ) : ℚ) ≤ p.1 ∧ p.1 ≤ (((q.x + 1) * 2 ^ (32 - q.z) + 4096 : ℤ) : ℚ) ∧
      ((q.y * 2 ^ (32 - q.z) - 4096 : ℤ) : ℚ) ≤ p.2 ∧ p.2 ≤ (((q.y + 1) * 2 ^ (32 - q.z) + 4096 : ℤ) : ℚ)) := by
  have e : ∀ a : Int, a * 4096 * 2 ^ (20 - q.z) = a * 2 ^ (32 - q.z) := by intro a; rw [Int.mul_assoc, pow_area hz]
  simp only [InBox, insertBounds, drawBounds, pxBounds, kOverdraw, e]
  exact ⟨trivial, trivial⟩

theorem crosses_level (p : Pt) (x x' y : Int) : crosses p ⟨x, y⟩ ⟨x', y⟩ = false := by simp [crosses]

theorem crosses_upright (p : Pt) (x y y' : Int) :
    crosses p ⟨x, y⟩ ⟨x, y'⟩ = ((decide (p.2 < (y : ℚ)) != decide (p.2 < (y' : ℚ))) && decide (p.1 < (x : ℚ))) := by
  have e : ∀ u v : ℚ, (x : ℚ) + u * ((x : ℚ) - x) / v = x := by intro u v; ring
  unfold crosses
  dsimp only
  rw [e]

theorem inRing_square {x0 y0 x1 y1 : Int} (h1 : x0 ≤ x1) (h2 : y0 ≤ y1) (p : Pt) :
    inRing [⟨x0, y0⟩, ⟨x0, y1⟩, ⟨x1, y1⟩, ⟨x1, y0⟩, ⟨x0, y0⟩] p = true ↔ (x0 : ℚ) ≤ p.1 ∧ p.1 < x1 ∧ (y0 : ℚ) ≤ p.2 ∧ p.2 < y1 := by
  have h1' : (x0 : ℚ) ≤ x1 := by exact_mod_cast h1
  have h2' : (y0 : ℚ) ≤ y1 := by exact_mod_cast h2
  show xor (crosses _ _ _) (xor (crosses _ _ _) (xor (crosses _ _ _) (xor (crosses _ _ _) (crosses _ _ _)))) = true ↔ _
  rw [crosses_level, crosses_level, crosses_level, crosses_upright, crosses_upright]
  by_cases a1 : p.2 < (y0 : ℚ) <;> by_cases a2 : p.2 < (y1 : ℚ) <;> by_cases a3 : p.1 < (x0 : ℚ) <;> by_cases a4 : p.1 < (x1 : ℚ) <;>
    simp only [a1, a2, a3, a4, decide_true, decide_false] <;> simp <;> try (intros; linarith)
  exact ⟨not_lt.1 a3, not_lt.1 a1⟩

/-- The feature that stands for the sea in a tile: a polygon without holes which covers exactly the tile and its margin, at all zoom levels, in
the layer `coastline`. -/
theorem C29_sea_square (t : Tile) (hv : t.Valid) (hz : t.z ≤ 20) :
    seasideFeature t = .ok (seaSquare t) ∧
    ∃ ring, (seaSquare t).geometry = .polygon [⟨ring, []⟩] ∧
      (∀ p : Pt, inRing ring p = true ↔ ((t.x * 2 ^ (32 - t.z) - 4096 : ℤ) : ℚ) ≤ p.1 ∧ p.1 < (((t.x + 1) * 2 ^ (32 - t.z) + 4096 : ℤ) : ℚ) ∧
        ((t.y * 2 ^ (32 - t.z) - 4096 : ℤ) : ℚ) ≤ p.2 ∧ p.2 < (((t.y + 1) * 2 ^ (32 - t.z) + 4096 : ℤ) : ℚ)) ∧
      (seaSquare t).metas = [⟨"layer".toUTF8.toList, "coastline".toUTF8.toList⟩] ∧ (seaSquare t).layer = 0 ∧
      ∀ z, z ≤ 20 → (seaSquare t).zmin ≤ z ∧ z ≤ (seaSquare t).zmax := by
  have e : ∀ a : Int, a * 4096 * 2 ^ (20 - t.z) = a * 2 ^ (32 - t.z) := by intro a; rw [Int.mul_assoc, pow_area hz]
  have hp : (0 : Int) < 2 ^ (32 - t.z) := Int.pow_pos (by decide)
  have hm : ∀ a : Int, a * 2 ^ (32 - t.z) - 4096 ≤ (a + 1) * 2 ^ (32 - t.z) + 4096 := by
    intro a; rw [Int.add_mul, Int.one_mul]; omega
  refine ⟨seasideFeature_ok hv hz, _, rfl, fun p => ?_, (by decide +kernel : [(⟨layerKey, coastlineName⟩ : Meta)] = _), rfl, fun z h => ⟨Nat.zero_le _, Nat.le_succ_of_le h⟩⟩
  simp only [drawBounds, pxBounds, kOverdraw, e]
  exact inRing_square (hm _) (hm _) p

end Tiles
