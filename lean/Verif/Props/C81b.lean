import Verif.Props.C69b
import Verif.Props.C81
/-! The hypotheses of C81 are met. -/
namespace Tiles
open Spec

/-- All conditions are met: the city and the bench are imported with five threads, on top of anything, and somewhere else, on top of something else, with two threads, another memory bound and a
coastline.  In every tile all but the coastline is the same. -/
example (a a' : TileDb MetaTable) : ∃ (b b' : TileDb MetaTable) (ctx ctx' : GetCtx), ∀ features features', EntriesOf b.features features → EntriesOf b'.features features' →
    ∀ q : Tile, q.Valid → q.z ≤ 20 →
      MapOf fullTables 0 1 q { osmDemo with workers := 5, upper := 7 } osmDemoData b features ctx ∧ MapOf fullTables 0 1 q worldDemo.toOsmSetting osmDemoData b' features' ctx' ∧
      ∃ layers layers', Seen b features ctx q layers ∧ Seen b' features' ctx' q layers' ∧ StillSeen osmDemoData osmDemoData q layers layers' ∧ StillSeen osmDemoData osmDemoData q layers' layers ∧
        ∀ L ∈ layers, L.name = b!"cities" → ∀ c ∈ L.features, AlsoSeen layers' b!"cities" c ∨ c.type = 2 := by
  have hok : ({ osmDemo with workers := 5, upper := 7 } : OsmSetting).Ok fullTables 0 1 := { osmDemo_ok with work := by decide }
  have hfits : ({ osmDemo with workers := 5, upper := 7 } : OsmSetting).Fits osmDemoData := ⟨osmDemo_fits.toGoodData, osmDemo_fits.records, osmDemo_fits.areas⟩
  obtain ⟨b, h1, h2, h3, h4⟩ := C68_completes hok hfits ["features", "pack", "tiles"] (.inr (by simp)) (.inr (by simp)) (.inr (by simp))
    (by simp [Asked]) (by decide) (by norm_num [osmDemo]) ⟨osmDemoCity, by simp [osmDemoData], _, _, osmDemo_rule, rfl, by simp [readOsmNode]⟩
    (fun fs m h => osmDemo_room h) (fun m ctx h q _ _ => osmDemo_short ctx (ctx_clip h) q) a
  have himp : Imports (importParts (({ osmDemo with workers := 5, upper := 7 } : OsmSetting).env osmDemoData)) [["features", "pack", "tiles"]] a b := ⟨b, h1, rfl⟩
  have hacts : changes [["features", "pack", "tiles"]] = [.load false true, .pack, .tiles] := by simp [changes, actsOf, Asked]
  obtain ⟨ctx, h5, _⟩ := C68_starts hok hfits _ hacts a b himp h3
  obtain ⟨b', k1, k2, k3, k4⟩ := C69_completes (W := worldDemo) osmDemo_ok osmDemo_fits (by simp [osmDemoData]) world_fits (by decide) world_tasks
    ["coastlines", "features", "pack", "tiles"] (.inr (by simp)) (.inr (by simp)) (.inr (by simp)) (.inr (by simp))
    (by decide) (by norm_num [worldDemo, osmDemo]) (fun xs m cs sea fs m0 h => by obtain ⟨_, _, i, _, hx⟩ := world_loaded h; rw [hx]; simp)
    (fun xs m cs sea fs m0 h => world_room h) (fun m ctx h q _ _ => world_short ctx (ctx_clip h) q) a'
  have kimp : Imports (importParts (worldDemo.env osmDemoData)) [["coastlines", "features", "pack", "tiles"]] a' b' := ⟨b', k1, rfl⟩
  have kacts : changes [["coastlines", "features", "pack", "tiles"]] = [.load true true, .pack, .tiles] := by simp [changes, actsOf, Asked]
  obtain ⟨ctx', k5, _⟩ := C69_starts (W := worldDemo) osmDemo_ok osmDemo_fits (by simp [osmDemoData]) world_fits _ kacts a' b' kimp k3
  refine ⟨b, b', ctx, ctx', fun features features' hdb hdb' q hv hz => ?_⟩
  have m1 : MapOf fullTables 0 1 q { osmDemo with workers := 5, upper := 7 } osmDemoData b features ctx :=
    .osm hok hfits _ hacts himp h3 (by omega) hdb h5 (osmDemo_short ctx (ctx_clip h5) q)
  have m2 : MapOf fullTables 0 1 q worldDemo.toOsmSetting osmDemoData b' features' ctx' :=
    .world osmDemo_ok osmDemo_fits (by simp [osmDemoData]) world_fits _ kacts kimp k3 (by omega) hdb' k5 (world_short ctx' (ctx_clip k5) q)
  obtain ⟨layers, layers', n1, n2, n3, n4⟩ := C81_same m1 m2 ⟨rfl, rfl, rfl, rfl, rfl, rfl, rfl⟩ (fun d => Iff.rfl) hv hz
  refine ⟨m1, m2, layers, layers', n1, n2, n3, n4, fun L hL hn c hc => ?_⟩
  by_cases hty : c.type = 2
  · exact .inr hty
  · left
    have := n3 L hL (by rw [hn]; decide +kernel) c hc (.inr hty) (fun d hd hid ht d' hd' hid' _ => by
      simp only [osmDemoData, List.mem_cons, List.not_mem_nil, or_false] at hd hd'
      rcases hd with rfl | rfl <;> rcases hd' with rfl | rfl
      · rfl
      · exact absurd hid' (by decide)
      · exact absurd hid' (by decide)
      · rfl)
    rwa [hn] at this

end Tiles
