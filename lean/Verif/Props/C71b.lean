import Verif.Props.C70b
import Verif.Props.C71
/-! C71: all conditions of `C71_osm` are met: nothing but the street is in the tile. -/
namespace Tiles
open Spec

theorem zip_next {l : Line} {a b : XY} (h : (a, b) ∈ l.zip l.tail) : Next l a b := by
  induction l with
  | nil => simp at h
  | cons x l ih =>
    cases l with
    | nil => simp at h
    | cons y l =>
      simp only [List.tail_cons, List.zip_cons_cons, List.mem_cons] at h ih
      rcases h with h | h
      · injection h with h1 h2
        subst h1 h2
        exact ⟨[], l, rfl⟩
      · exact next_tail (ih h)

theorem segPart_next {box : Box} {ls : List Line} {part : Line} (h : part ∈ segInter box ls) :
    ∃ l ∈ ls, ∃ a b, Next l a b ∧ (segIn box a b).Nonempty ∧ part = [floorPt (onSeg a b (sInf (segIn box a b))), floorPt (onSeg a b (sSup (segIn box a b)))] := by
  obtain ⟨l, hl, h⟩ := List.mem_flatMap.1 h
  obtain ⟨e, he, h⟩ := List.mem_flatMap.1 h
  unfold segPart at h
  split at h
  · rename_i hne
    exact ⟨l, hl, e.1, e.2, zip_next he, hne, List.mem_singleton.1 h⟩
  · cases h

theorem seg_faith : FaithLib 1 0 segInter C62_clipper (fun _ l => l) where
  lines := by
    intro box ls part hp c d hcd u u0 u1
    obtain ⟨l, hl, a, b, hab, hne, rfl⟩ := segPart_next hp
    obtain ⟨k1, k2, _⟩ := seg_ends hne
    obtain ⟨⟨lo0, lo1⟩, _⟩ := k1
    obtain ⟨⟨hi0, hi1⟩, _⟩ := k2
    generalize sInf (segIn box a b) = lo at *
    generalize sSup (segIn box a b) = hi at *
    have hcd' : c = floorPt (onSeg a b lo) ∧ d = floorPt (onSeg a b hi) := by
      rcases next_cons hcd with ⟨h1, l', h2⟩ | h
      · injection h2 with h2 _
        exact ⟨h1.symm, h2.symm⟩
      · rcases next_cons h with ⟨_, l', h2⟩ | h
        · cases h2
        · have := (next_mem h).1; cases this
    obtain ⟨rfl, rfl⟩ := hcd'
    obtain ⟨c1, c2⟩ := floorPt_near (onSeg a b lo)
    obtain ⟨d1, d2⟩ := floorPt_near (onSeg a b hi)
    refine ⟨onSeg a b (lo + u * (hi - lo)), ⟨l, hl, a, b, hab, _, by nlinarith, by nlinarith, rfl⟩, ?_⟩
    have r1 := mix_close u0 u1 c1 d1
    have r2 := mix_close u0 u1 c2 d2
    simp only [onSeg, CloseBy, Int.cast_one] at *
    refine ⟨?_, ?_⟩
    · convert r1 using 2
      ring
    · convert r2 using 2
      ring
  outlines := by
    intro paths box nodes hn q hq r hr a b hab u u0 u1
    refine ⟨onSeg a b u, .inl ?_, by simp [CloseBy]⟩
    rw [C62_clipper] at hn
    split at hn
    · cases hn
    injection hn with hn
    subst hn
    have key : ∀ l : List Line, q ∈ polysOf (l.map (fun p => .mk p false [])) → r ∈ l := by
      intro l
      induction l with
      | nil => simp [polysOf]
      | cons p l ih =>
        rw [List.map_cons, polysOf, holesOf, polysBelow]
        intro hq
        rcases List.mem_cons.1 hq with rfl | hq
        · simp only [List.mem_singleton] at hr
          subst hr
          exact .head _
        · exact .tail _ (ih (by simpa using hq))
    have hin := (List.mem_filter.1 (key _ hq)).1
    exact ⟨close r, List.mem_map_of_mem hin, a, b, hab, u, u0, u1, rfl⟩
  simplifies := by
    intro n l a b hab u u0 u1
    exact ⟨_, ⟨l, by simp, a, b, hab, u, u0, u1, rfl⟩, by simp [CloseBy]⟩

theorem street_whole (z : Nat) (l : Line) : keep (streetDemo.rd (streetDemo.mkMask l) z) l = l := by
  simpa [streetDemo, osmDemo, C52_rd, C52_mk] using C41_full_mask l

/-- the pieces of the street -/
theorem street_pieces {z : Nat} {A B : LatLng} (h : Piece streetDemo.prof.conv (fun l => streetDemo.rd (streetDemo.mkMask l) z) street.shape A B) :
    (A = streetA ∧ B = streetB) ∨ (A = streetB ∧ B = streetC) := by
  have h : [A, B] <:+: keptPlaces (streetDemo.rd (streetDemo.mkMask (([some streetA, none, some streetB, some streetC].filterMap id).map streetDemo.prof.conv)) z)
    [some streetA, none, some streetB, some streetC] := h
  rw [street_kept] at h
  obtain ⟨s, t, h⟩ := h
  match s, h with
  | [], h =>
    simp only [List.nil_append, List.cons_append, List.cons.injEq] at h
    exact .inl ⟨h.1, h.2.1⟩
  | [x], h =>
    simp only [List.nil_append, List.cons_append, List.cons.injEq] at h
    exact .inr ⟨h.2.1, h.2.2.1⟩
  | x :: y :: s, h =>
    have := congrArg List.length h
    simp at this
    omega

/-- All conditions are met: a file with a street is imported with full.lua, on top of anything; then the server starts, and whatever somebody finds in the tile
12/2560/2560 is the street, with its id, layer and attributes, and it is drawn where the street runs: along `y = 1024` from `x = 1024` to the east. -/
example (a : TileDb MetaTable) : ∃ (b : TileDb MetaTable) (ctx : GetCtx), Imports (importParts (streetDemo.env streetData)) [["features", "pack", "tiles"]] a b ∧
    makeRenderCtx streetDemo.base (preparedString b.maxPrepared) b.info = .ok ctx ∧
    ∀ features, EntriesOf b.features features → ∃ bytes layers, getTile b.tiles features b.pf.reopen ctx ⟨2560, 2560, 12⟩ = .ok (if bytes = [] then none else some (ctx.encode bytes)) ∧
      (bytes.length < 2 ^ 32 → clientTile bytes = some layers) ∧
      ∀ L ∈ layers, ∀ c ∈ L.features, L.name = b!"road" ∧ c.id = 9 ∧ c.type = 2 ∧ c.tags.Perm [(b!"highway", .str b!"residential"), (b!"name", .str b!"Rheinstrasse")] ∧
        ∀ part ∈ c.parts, ∀ p p', Next part.points p p' → ∀ u : ℝ, 0 ≤ u → u ≤ 1 →
          ∃ x : ℝ, 1024 ≤ x ∧ CloseBy (2 / 2 ^ 8 + 1) (onSeg p p' u) (x, 1024) := by
  obtain ⟨b, h1, h2, h3, h4⟩ := C68_completes street_ok street_fits ["features", "pack", "tiles"] (.inr (by simp)) (.inr (by simp)) (.inr (by simp))
    (by simp [Asked]) (by decide) (by norm_num [streetDemo, osmDemo]) ⟨street, by simp [streetData], _, _, street_rule, street_read, by simp⟩
    (fun fs m h => street_room h) (fun m ctx h q _ _ => street_short ctx (ctx_clip h) (ctx_aggregate h) q) a
  have himp : Imports (importParts (streetDemo.env streetData)) [["features", "pack", "tiles"]] a b := ⟨b, h1, rfl⟩
  have hacts : changes [["features", "pack", "tiles"]] = [.load false true, .pack, .tiles] := by simp [changes, actsOf, Asked]
  obtain ⟨ctx, h5, _⟩ := C68_starts street_ok street_fits _ hacts a b himp h3
  refine ⟨b, ctx, himp, h5, fun features hdb => ?_⟩
  obtain ⟨bytes, layers, k1, k2, k3⟩ := C71_osm (τ := 0) street_ok street_fits ⟨segInter, C62_clipper, id, fun _ l => l, seg_clip, seg_faith, rfl, fun z fs out h => by
      show C62_agg z fs = out
      rw [C62_agg, h]⟩ (fun z l h => by rw [street_whole]; exact h) _ hacts a b himp h3 (by omega) features hdb ctx h5
    ⟨2560, 2560, 12⟩ (by decide) (by decide) (street_short ctx (ctx_clip h5) (ctx_aggregate h5) _)
  refine ⟨bytes, layers, k1, fun h => (k2 h).1, fun L hL c hc => ?_⟩
  obtain ⟨d, hd, r, hr, m1, m2, m3, m4, m5⟩ := k3 L hL c hc
  have hd : d = street := by simpa [streetData] using hd
  subst hd
  rw [street_rule] at hr
  injection hr with hr
  subst hr
  have htags : (⟨b!"road", fromLevel 12, roadAttrs⟩ : RuleOut).shown streetDemo.numeral streetDemo.prof.toDouble (tagValue street.tags) =
      [(b!"highway", .str b!"residential"), (b!"name", .str b!"Rheinstrasse")] := by
    show RuleOut.shown fromCharsI64 streetDemo.prof.toDouble (tagValue streetTags) ⟨b!"road", fromLevel 12, roadAttrs⟩ = _
    rfl
  rw [htags] at m4
  have hid : (street.id % 2 ^ 64 : Int) = 9 := by show (9 % 2 ^ 64 : Int) = 9; norm_num
  rw [hid] at m2
  have hty : c.type = 2 := m3
  refine ⟨m1, by omega, hty, m4, fun part hpart p p' hpp u u0 u1 => ?_⟩
  obtain ⟨_, _, n1⟩ := (m5 part hpart).2.1 hty
  obtain ⟨w, ⟨d', _, hd', _, _, A, B, hAB, s, s0, s1, rfl⟩, n2⟩ := n1 p p' hpp u u0 u1
  have hd' : d' = street := hd' (by decide)
  subst hd'
  obtain ⟨a1, a2⟩ := C64_place_at (2684616704 / 2 ^ 32) (2684616704 / 2 ^ 32)
  obtain ⟨b1, b2⟩ := C64_place_at (2684747776 / 2 ^ 32) (2684616704 / 2 ^ 32)
  obtain ⟨c1, c2⟩ := C64_place_at (2686844928 / 2 ^ 32) (2684616704 / 2 ^ 32)
  rcases street_pieces hAB with ⟨rfl, rfl⟩ | ⟨rfl, rfl⟩
  · refine ⟨1024 + 512 * s, by linarith, ?_⟩
    have hp : inTile ⟨2560, 2560, 12⟩ (between streetA streetB s) = (1024 + 512 * s, 1024) := by
      rw [between, streetA, streetB, a1, a2, b1, b2, inTile]
      norm_num
      ring
    rw [hp] at n2
    norm_num at n2 ⊢
    exact n2
  · refine ⟨1536 + 8192 * s, by linarith, ?_⟩
    have hp : inTile ⟨2560, 2560, 12⟩ (between streetB streetC s) = (1536 + 8192 * s, 1024) := by
      rw [between, streetB, streetC, b1, b2, c1, c2, inTile]
      norm_num
      ring
    rw [hp] at n2
    norm_num at n2 ⊢
    exact n2

end Tiles
