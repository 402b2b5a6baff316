import Verif.Spec.OsmData
import Verif.Props.C22
/-
The geometry of an object: where its points come from, and how many there are.
-/
namespace Tiles
open Spec

section
variable {L : Type} (conv : L → XY)

theorem nodesToFixed_spec : ∀ (ns : List (Option L)), (nodesToFixed conv ns).length ≤ ns.length ∧ ∀ x ∈ nodesToFixed conv ns, ∃ l, some l ∈ ns ∧ x = conv l
  | [] => ⟨le_rfl, fun x hx => by cases hx⟩
  | some l :: ns => by
    obtain ⟨h1, h2⟩ := nodesToFixed_spec ns
    rw [nodesToFixed]
    refine ⟨by simpa using h1, fun x hx => ?_⟩
    rcases List.mem_cons.1 hx with rfl | hx
    · exact ⟨l, by simp, rfl⟩
    · obtain ⟨l', h3, h4⟩ := h2 x hx
      exact ⟨l', .tail _ h3, h4⟩
  | none :: ns => by
    obtain ⟨h1, h2⟩ := nodesToFixed_spec ns
    rw [nodesToFixed]
    refine ⟨by simp; omega, fun x hx => ?_⟩
    obtain ⟨l', h3, h4⟩ := h2 x hx
    exact ⟨l', .tail _ h3, h4⟩

theorem closeRing_spec (r : Line) : (closeRing r).length ≤ r.length + 1 ∧ ∀ x ∈ closeRing r, x ∈ r := by
  unfold closeRing
  split
  · rename_i a b ha hb
    split
    · exact ⟨by omega, fun x hx => hx⟩
    · refine ⟨by simp, fun x hx => ?_⟩
      rcases List.mem_append.1 hx with hx | hx
      · exact hx
      · rw [List.mem_singleton] at hx
        subst hx
        exact List.mem_of_mem_head? (by rw [ha]; rfl)
  · exact ⟨by omega, fun x hx => hx⟩

/-- all points come from these nodes, and no line has more than `n` points -/
def LineFrom (ns : List (Option L)) (n : Nat) (r : Line) : Prop := r.length ≤ n ∧ ∀ x ∈ r, ∃ l, some l ∈ ns ∧ x = conv l

structure PolysFrom (ns : List (Option L)) (n k : Nat) (ps : List Polygon) : Prop where
  lines : ∀ p ∈ ps, ∀ r ∈ p.outer :: p.inners, LineFrom conv ns n r
  count : ps.length ≤ k
  inner : ∀ p ∈ ps, p.inners.length ≤ k

theorem ring_from {ns nodes : List (Option L)} {n : Nat} (h : ∀ x ∈ nodes, x ∈ ns) (hn : nodes.length + 1 ≤ n) :
    LineFrom conv ns n (closeRing (nodesToFixed conv nodes)) := by
  obtain ⟨h1, h2⟩ := nodesToFixed_spec conv nodes
  obtain ⟨h3, h4⟩ := closeRing_spec (nodesToFixed conv nodes)
  refine ⟨by omega, fun x hx => ?_⟩
  obtain ⟨l, h5, h6⟩ := h2 x (h4 x hx)
  exact ⟨l, h _ h5, h6⟩

theorem polysFrom_mono {ns : List (Option L)} {n k k' : Nat} {ps : List Polygon} (h : PolysFrom conv ns n k ps) (hk : k ≤ k') : PolysFrom conv ns n k' ps :=
  ⟨h.lines, h.count.trans hk, fun p hp => (h.inner p hp).trans hk⟩

theorem readAreaLoop_from (ns : List (Option L)) (n : Nat) : ∀ (items : List (AreaItem L)) (k : Nat) (ps : List Polygon) (res : List Polygon),
    (∀ it ∈ items, (∀ x ∈ itemNodes it, x ∈ ns) ∧ (itemNodes it).length + 1 ≤ n) → PolysFrom conv ns n k ps →
    readAreaLoop conv ps items = .ok (some res) → PolysFrom conv ns n (k + items.length) res := by
  intro items
  induction items with
  | nil =>
    intro k ps res _ h hr
    rw [readAreaLoop] at hr
    injection hr with hr; injection hr with hr; subst hr
    exact h
  | cons it items ih =>
    intro k ps res hit h hr
    have hi := hit it (.head _)
    have hrest := fun i hi => hit i (List.mem_cons_of_mem _ hi)
    rw [List.length_cons, show k + (items.length + 1) = (k + 1) + items.length by omega]
    cases it with
    | other =>
      rw [readAreaLoop] at hr
      exact ih _ _ _ hrest (polysFrom_mono conv h (by omega)) hr
    | outer nodes =>
      rw [readAreaLoop] at hr
      split at hr
      · cases hr
      · refine ih _ _ _ hrest ⟨?_, ?_, ?_⟩ hr
        · intro p hp r hrr
          rcases List.mem_append.1 hp with hp | hp
          · exact h.lines p hp r hrr
          · rw [List.mem_singleton] at hp
            subst hp
            rw [List.mem_singleton] at hrr
            subst hrr
            exact ring_from conv hi.1 hi.2
        · have := h.count
          simp; omega
        · intro p hp
          rcases List.mem_append.1 hp with hp | hp
          · exact (h.inner p hp).trans (by omega)
          · rw [List.mem_singleton] at hp
            subst hp
            simp
    | inner nodes =>
      rw [readAreaLoop] at hr
      split at hr
      · cases hr
      · rename_i p hlast
        obtain ⟨r, h1, h2⟩ := Res.bind_eq_ok.1 hr
        have hp : p ∈ ps := List.mem_of_getLast? hlast
        refine ih _ _ _ hrest ⟨?_, ?_, ?_⟩ h2
        · intro p' hp' r' hrr
          rcases List.mem_append.1 hp' with hp' | hp'
          · exact h.lines p' (List.dropLast_subset _ hp') r' hrr
          · rw [List.mem_singleton] at hp'
            subst hp'
            have : r' ∈ p.outer :: p.inners ∨ r' = r := by
              rcases List.mem_cons.1 hrr with h3 | h3
              · exact .inl (by rw [h3]; exact .head _)
              · rcases List.mem_append.1 h3 with h3 | h3
                · exact .inl (.tail _ h3)
                · exact .inr (List.mem_singleton.1 h3)
            rcases this with h3 | rfl
            · exact h.lines p hp r' h3
            · have hf := ring_from conv hi.1 hi.2
              unfold readInner at h1
              dsimp only at h1
              split at h1
              · split at h1
                · cases h1
                · injection h1 with h1
                  subst h1
                  refine ⟨?_, fun x hx => hf.2 x (List.dropLast_subset _ hx)⟩
                  have := hf.1
                  rw [List.length_dropLast]; omega
              · injection h1 with h1
                subst h1
                exact hf
        · have := h.count
          simp; omega
        · intro p' hp'
          rcases List.mem_append.1 hp' with hp' | hp'
          · exact (h.inner p' (List.dropLast_subset _ hp')).trans (by omega)
          · rw [List.mem_singleton] at hp'
            subst hp'
            have := h.inner p hp
            simp; omega

/-- at most `n` polygons with at most `n` holes each, or one line -/
def countsUpTo (n : Nat) : Geometry → Prop
  | .polyline l => l.length ≤ 1
  | .polygon p => p.length ≤ n ∧ ∀ q ∈ p, q.inners.length ≤ n
  | _ => True

/-- a node is read as a point, a way as a line, an area as polygons -/
def readAs (g : Geometry) : OsmShape L → Prop
  | .node _ => ∃ x, g = .point [x]
  | .way _ => ∃ l : Line, 2 ≤ l.length ∧ g = .polyline [l]
  | .area _ => ∃ p ps, g = .polygon (p :: ps)

/-- what was read of an object -/
theorem readOsm_from {s : OsmShape L} {g : Geometry} (h : readOsm conv s = .ok g) :
    (∀ l ∈ linesOf g, LineFrom conv (shapeNodes s) (shapeSize s + 1) l) ∧
    countsUpTo (shapeSize s) g ∧ (g = .null ∨ readAs g s) := by
  cases s with
  | node loc =>
    injection h with h
    subst h
    unfold readOsmNode
    cases loc with
    | none => exact ⟨(by intro l hl; cases hl), trivial, .inl rfl⟩
    | some l =>
      refine ⟨fun r hr => ?_, trivial, .inr ⟨_, rfl⟩⟩
      rw [show linesOf (.point [conv l]) = [[conv l]] from rfl, List.mem_singleton] at hr
      subst hr
      refine ⟨by simp, fun x hx => ⟨l, by simp [shapeNodes], by simpa using hx⟩⟩
  | way nodes =>
    injection h with h
    subst h
    unfold readOsmWay
    dsimp only
    split
    · exact ⟨(by intro l hl; cases hl), trivial, .inl rfl⟩
    · rename_i hlen
      refine ⟨fun r hr => ?_, by simp [countsUpTo], .inr ⟨_, by omega, rfl⟩⟩
      rw [show linesOf (.polyline [nodesToFixed conv nodes]) = [nodesToFixed conv nodes] from rfl, List.mem_singleton] at hr
      subst hr
      obtain ⟨h1, h2⟩ := nodesToFixed_spec conv nodes
      refine ⟨?_, h2⟩
      simp only [shapeSize, shapeNodes]; omega
  | area items =>
    change readOsmArea conv items = _ at h
    unfold readOsmArea at h
    obtain ⟨x, h1, h2⟩ := Res.bind_eq_ok.1 h
    have hnull : g = .null → (∀ l ∈ linesOf g, LineFrom conv (shapeNodes (.area items)) (shapeSize (.area items) + 1) l) ∧
        countsUpTo (shapeSize (.area items)) g ∧ (g = .null ∨ readAs g (.area items)) :=
      fun e => ⟨(by intro l hl; rw [e] at hl; cases hl), (by rw [e]; trivial), .inl e⟩
    split at h2
    · injection h2 with h2; exact hnull h2.symm
    · injection h2 with h2; exact hnull h2.symm
    · rename_i p ps
      injection h2 with h2
      subst h2
      have := readAreaLoop_from conv (items.flatMap itemNodes) ((items.flatMap itemNodes).length + 1) items 0 [] (p :: ps) (by
        intro it hit
        refine ⟨fun x hx => List.mem_flatMap.2 ⟨it, hit, hx⟩, ?_⟩
        have : (itemNodes it).length ≤ (items.flatMap itemNodes).length := by
          rw [List.length_flatMap]
          exact List.single_le_sum (by simp) _ (List.mem_map.2 ⟨it, hit, rfl⟩)
        omega) ⟨fun p hp => by simp at hp, by simp, fun p hp => by simp at hp⟩ h1
      refine ⟨fun l hl => ?_, ⟨?_, fun q hq => ?_⟩, .inr ⟨_, _, rfl⟩⟩
      · obtain ⟨q, hq, hl⟩ := List.mem_flatMap.1 hl
        obtain ⟨k1, k2⟩ := this.lines q hq l hl
        exact ⟨by simp only [shapeSize, shapeNodes]; omega, k2⟩
      · have := this.count
        simp only [shapeSize, shapeNodes]; omega
      · have := this.inner q hq
        simp only [shapeSize, shapeNodes]; omega

end

/-- the points of an object lie in the map: what reading, storing and indexing need -/
theorem shape_ok {L : Type} (conv : L → XY) {s : OsmShape L} {g : Geometry} (h : readOsm conv s = .ok g) (hg : g ≠ .null)
    (hp : ∀ l, some l ∈ shapeNodes s → 0 ≤ (conv l).x ∧ (conv l).x < 2 ^ 32 ∧ 0 ≤ (conv l).y ∧ (conv l).y < 2 ^ 32) (hsz : shapeSize s < 2 ^ 32)
    (hr : ∀ ps, g = .polygon ps → ∀ p ∈ ps, ∀ r ∈ p.outer :: p.inners, 4 ≤ r.length) :
    GeoOk g ∧ Spec.CountsOk g ∧ envelopePoints g ≠ [] ∧ ∀ x ∈ envelopePoints g, 0 ≤ x.x ∧ x.x < 2 ^ 32 ∧ 0 ≤ x.y ∧ x.y < 2 ^ 32 := by
  obtain ⟨h1, h2, h3⟩ := readOsm_from conv h
  have hpt : ∀ l ∈ linesOf g, ∀ x ∈ l, 0 ≤ x.x ∧ x.x < 2 ^ 32 ∧ 0 ≤ x.y ∧ x.y < 2 ^ 32 := by
    intro l hl x hx
    obtain ⟨l', h4, rfl⟩ := (h1 l hl).2 x hx
    exact hp l' h4
  refine ⟨fun l hl => ⟨?_, fun x hx => ?_⟩, ?_, ?_, ?_⟩
  · have := (h1 l hl).1
    omega
  · have := hpt l hl x hx
    unfold PtOk CoordOk
    omega
  · cases g with
    | null => trivial
    | point p => trivial
    | polyline l => show l.length < _; have : l.length ≤ 1 := h2; omega
    | polygon ps => exact ⟨by have := h2.1; omega, fun q hq => by have := h2.2 q hq; omega⟩
  · rcases h3 with h3 | h3
    · exact absurd h3 hg
    · cases s with
      | node _ => obtain ⟨x, rfl⟩ := h3; simp [envelopePoints]
      | way _ =>
        obtain ⟨l, h4, rfl⟩ := h3
        cases l with
        | nil => simp at h4
        | cons a l => simp [envelopePoints]
      | area _ =>
        obtain ⟨p, ps, rfl⟩ := h3
        have := hr _ rfl p (.head _) p.outer (.head _)
        cases ho : p.outer with
        | nil => rw [ho] at this; simp at this
        | cons a l => simp [envelopePoints, ho]
  · intro x hx
    cases g with
    | null => cases hx
    | point p => exact hpt p (by simp [linesOf]) x hx
    | polyline l =>
      obtain ⟨r, h4, h5⟩ := List.mem_flatten.1 hx
      exact hpt r h4 x h5
    | polygon ps =>
      obtain ⟨q, h4, h5⟩ := List.mem_flatMap.1 hx
      have hsub : ∀ r ∈ q.outer :: q.inners, r ∈ linesOf (.polygon ps) := fun r hr => List.mem_flatMap.2 ⟨q, h4, hr⟩
      split at h5
      · obtain ⟨r, h6, h7⟩ := List.mem_flatten.1 h5
        exact hpt r (hsub r (.tail _ h6)) x h7
      · exact hpt _ (hsub _ (.head _)) x h5

end Tiles
