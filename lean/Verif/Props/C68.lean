import Verif.Proof.OsmLoaded
import Verif.Props.C66b
/-
C68: the whole way: from an OSM file and a shipped profile, through the import, to the tiles that the server sends and a client reads.
-/
namespace Tiles
open Spec

/-- what an import depends on besides the file and the database: the libraries, the profile, the settings -/
structure Spec.OsmSetting where
  /-- projection, areas, numbers (load_osm.cc and the functions of the profile) -/
  prof : ProfileCtx LatLng
  profile : LuaProfile
  numeral : Bytes → Option Int
  /-- the drawing: clipping, joining lines, compression -/
  base : GetCtx
  crc : Bytes → UInt32
  srt : List QFeature → List QFeature
  mkMask : Line → Bytes
  rd : Bytes → Nat → List Bool
  upper : Nat
  lower : Nat
  mem : Nat
  batch : Nat
  workers : Nat

/-- the import of these objects, without coastlines; both the preparation and the server read their settings from the meta table -/
def Spec.OsmSetting.env (S : OsmSetting) (data : List Datum) : ImportEnv MetaTable where
  profileGood := true
  noInfo := ⟨none, none, none⟩
  crc := S.crc
  srt := S.srt
  mkMask := S.mkMask
  rd := S.rd
  upper := S.upper
  lower := S.lower
  mem := S.mem
  batch := S.batch
  workers := S.workers
  decOf m := match loadSharedMetadata m.coding with | .ok tbl => tbl | _ => []
  ctxOf m := match makeRenderCtx S.base none m with | .ok c => c | _ => S.base
  loads coast osm xs m := coast = false ∧ osm = true ∧ ∃ fs, xs = fs.map (List.map whole) ∧ OsmLoads S.prof S.profile S.numeral data fs m

/-- what is assumed of libraries and settings: places are computed with an error of `g` units of 2^-32 of the map, clipping has an error of `e` units (C62, C64) -/
structure Spec.OsmSetting.Ok (S : OsmSetting) (t : Tables) (e : Int) (g : ℝ) : Prop where
  shipped : Shipped S.profile t
  numerals : ∀ s n, S.numeral s = some n → -(2 : Int) ^ 63 ≤ n ∧ n < (2 : Int) ^ 63
  doubles : ∀ n, S.prof.toDouble n < 2 ^ 64
  sorts : SortsByKey S.srt
  masks : ∀ l z, (S.rd (S.mkMask l) z).length = l.length
  /-- simplifying leaves something (the ends of a line, C20) -/
  keeps : ∀ l z, l ≠ [] → keep (S.rd (S.mkMask l) z) l ≠ []
  work : 0 < S.workers
  reads : S.base.rd = S.rd
  error : 0 ≤ e ∧ e ≤ 2 ^ 20 ∧ 1 ≤ g
  clip : ∃ inter clipper correct, ClipLib e inter clipper correct ∧ S.base.clip = clipGeometry inter clipper correct
  joins : ∃ simplify, ∀ z fs out, aggregateLineFeatures simplify z fs = .ok out → S.base.aggregate z fs = out
  places : ∃ px, GeoLib g px ∧ S.prof.conv = latlngToFixed px

/-- what is assumed of the data in addition to `GoodData`: sizes of records (short ones stop the import, C44), and polygons do not collapse when they are
simplified (Clipper would refuse them, C46) -/
structure Spec.OsmSetting.Fits (S : OsmSetting) (data : List Datum) : Prop extends GoodData S.prof S.profile S.numeral data where
  records : ∀ fs m, OsmLoads S.prof S.profile S.numeral data fs m → ∀ f ∈ fs.flatten, ∀ b,
    serializeFeature (fun _ => []) [] true f = .ok b ∨ serializeFeature S.mkMask ((S.env data).decOf m) false f = .ok b → 32 ≤ b.length ∧ b.length < 2 ^ 32
  areas : ∀ d ∈ data, ∀ ps, readOsm S.prof.conv d.shape = .ok (.polygon ps) → ∀ z ≤ 20, ∀ qs,
    withoutSmallRings (simplified (fun l => S.rd (S.mkMask l) z) (.polygon ps)) = .polygon qs → ∃ r ∈ ringsOf qs, area2 r.dropLast ≠ 0

theorem serialize_some {mk : Line → Bytes} {dec : List Meta} {fast : Bool} {f : Feature} (h : envelopePoints f.geometry ≠ []) : ∃ b, serializeFeature mk dec fast f = .ok b := by
  have : ∃ x, serElements f.geometry = .ok x := by
    cases hg : f.geometry with
    | null => rw [hg] at h; exact absurd rfl h
    | point ps => cases ps with
      | nil => rw [hg] at h; exact absurd rfl h
      | cons a l => exact ⟨_, rfl⟩
    | polyline ls => cases ls with
      | nil => rw [hg] at h; exact absurd rfl h
      | cons a l => exact ⟨_, rfl⟩
    | polygon ps => cases ps with
      | nil => rw [hg] at h; exact absurd rfl h
      | cons a l => exact ⟨_, rfl⟩
  obtain ⟨x, hx⟩ := this
  unfold serializeFeature serializeGeometry
  rw [hx]
  exact ⟨_, rfl⟩

section
variable {S : OsmSetting} {t : Tables} {e : Int} {g : ℝ} {data : List Datum}

theorem conv_near (hS : S.Ok t e g) (l : LatLng) (hl : OnMap l) : 0 ≤ (S.prof.conv l).x ∧ (S.prof.conv l).x < 2 ^ 32 ∧ 0 ≤ (S.prof.conv l).y ∧ (S.prof.conv l).y < 2 ^ 32 := by
  obtain ⟨px, h1, h2⟩ := hS.places
  obtain ⟨x, y, h3, h4, h5, _⟩ := C64_near hS.error.2.2 h1 l hl
  rw [h2, h3]
  simp only
  omega

/-- what is stored can be imported and drawn -/
theorem osm_importable (hS : S.Ok t e g) (hD : S.Fits data) {fs : List (List Feature)} {m : MetaTable} (hl : OsmLoads S.prof S.profile S.numeral data fs m)
    {names : List Bytes} {tbl : List Meta} (hload : OsmLoaded S.prof S.profile t S.numeral data fs m names tbl) :
    (S.env data).decOf m = tbl ∧ tbl.length ≤ 2 ^ 64 ∧ fs.flatten.length < 2 ^ 32 ∧
    ∀ f ∈ fs.flatten, Importable S.mkMask ((S.env data).decOf m) plainOf (whole f) ∧ f.layer < names.length ∧ ∀ z ≤ 20, Drawable (fun l => S.rd (S.mkMask l) z) f := by
  have hmany := hD.many
  have hdec : (S.env data).decOf m = tbl := by
    obtain ⟨b1, b2, rfl, _, h3⟩ := hload.table
    show (match loadSharedMetadata (some b2) with | .ok tbl => tbl | _ => []) = tbl
    rw [h3]
  refine ⟨hdec, by have := hload.shared; omega, lt_of_le_of_lt hload.count hmany, fun f hf => ?_⟩
  obtain ⟨d, hd, r, hr, hst, hne, hde⟩ := hload.from_data f hf
  have hgeo : readOsm S.prof.conv d.shape = .ok f.geometry := hst.geometry
  obtain ⟨s1, s2, s3, s4⟩ := shape_ok S.prof.conv hgeo hne (fun l h => conv_near hS l (hD.places d hd l h)) (hD.small d hd) (fun ps h => hD.rings d hd ps (by rw [hgeo, h]))
  have hlayer : f.layer < names.length := (List.getElem?_eq_some_iff.1 hst.layer).1
  have hfi := rules_fine hS.shipped r (decideBy_rules (shape := d.shape) hr)
  unfold ruleFine at hfi
  simp only [Bool.and_eq_true, decide_eq_true_eq, List.all_eq_true] at hfi
  have hzmin : f.zmin ≤ 18 := by
    obtain ⟨z, h1, h2⟩ := levelFor_total (areaOf S.prof (d.obj S.profile S.numeral)) r.zoom (by simpa using hfi.2)
    rw [hst.first] at h1
    injection h1 with h1
    subst h1
    obtain ⟨x, h3, h4⟩ := List.mem_map.1 h2
    have := hfi.1.2 x h3
    rw [h4] at this
    exact this
  obtain ⟨_, ⟨p1, m1, e1⟩, ⟨p2, m2, e2⟩, ⟨p3, m3, e3⟩, ⟨p4, m4, e4⟩⟩ := boundingBox_spec s1 s3
  have hbox := (boundingBox_spec s1 s3).1
  have htags := tags_perm hS.shipped hS.numerals hS.doubles (hD.texts d hd) hr hst
  have hid : f.id < 2 ^ 64 := by
    have := hst.id
    have h2 := Int.emod_lt_of_pos (d.obj S.profile S.numeral).id (show (0 : Int) < 2 ^ 64 by norm_num)
    omega
  obtain ⟨bp, hbp⟩ := serialize_some (mk := fun _ => []) (dec := []) (fast := true) s3
  obtain ⟨bi, hbi⟩ := serialize_some (mk := S.mkMask) (dec := (S.env data).decOf m) (fast := false) s3
  refine ⟨importable_whole ⟨⟨⟨hid, by omega, by rw [hst.last]; decide, by have := hload.few.2; omega, s1, s2, s3⟩, fun ps h => hD.rings d hd ps (by rw [hgeo, h])⟩, by omega, ?_, ?_⟩ ?_, hlayer, ?_⟩
  rotate_left 2
  · have k1 := s4 p1 m1
    have k2 := s4 p2 m2
    have k3 := s4 p3 m3
    have k4 := s4 p4 m4
    have k5 := hbox p1 m1
    have k6 := hbox p2 m2
    unfold Box.InRange kFixedCoordMax
    omega
  · intro z hz
    refine ⟨fun m hm => htags.2 m (List.mem_filter.1 (by rw [exported] at hm; exact hm)).1, fun ps qs h1 h2 => ?_, fun ls h1 => ?_⟩
    · rw [h1] at h2
      exact hD.areas d hd ps (by rw [hgeo, h1]) z hz qs h2
    · have h3 := (readOsm_from S.prof.conv hgeo)
      rw [h1] at h3
      obtain ⟨h4, h5, h6⟩ := h3
      have h7 : ls.length ≤ 1 := h5
      refine ⟨by omega, fun l hl' => hS.keeps l z ?_⟩
      rcases h6 with h6 | h6
      · cases h6
      · cases hsh : d.shape with
        | node _ => rw [hsh] at h6; obtain ⟨x, h6⟩ := h6; cases h6
        | way _ =>
          rw [hsh] at h6
          obtain ⟨l', h8, h9⟩ := h6
          injection h9 with h9
          subst h9
          rw [List.mem_singleton] at hl'
          subst hl'
          rintro rfl
          simp at h8
        | area _ => rw [hsh] at h6; obtain ⟨x, y, h6⟩ := h6; cases h6
  · have hpl : plainOf f = bp := by unfold plainOf; rw [hbp]
    rw [hpl]
    exact ⟨hbp, hD.records fs m hl f hf bp (.inl hbp)⟩
  · exact ⟨bi, hbi, hD.records fs m hl f hf bi (.inr hbi)⟩

/-- after an import the levels 0 to 10 are prepared, and the meta table is that of the loading -/
theorem imports_loaded {ι : Type} (en : ImportEnv ι) (coast osm : Bool) (hw : 0 < en.workers)
    (hin : ∀ fs i, en.loads coast osm fs i → (∀ x ∈ fs.flatten, Importable en.mkMask (en.decOf i) plainOf x) ∧ fs.flatten.length < 2 ^ 32)
    (runs : List (List String)) (hacts : changes runs = [.load coast osm, .pack, .tiles]) (a b : TileDb ι) (hr : Imports (importParts en) runs a b)
    (hsmall : SmallPacks b.features) : b.maxPrepared = some 10 ∧ ∃ fs, en.loads coast osm fs b.info := by
  have hready : Ready en coast osm { b with pf := b.pf.reopen } [] := by
    refine ready_imports en coast osm (rest := []) ?_ hr
    rw [hacts]; exact .start
  cases hready with
  | prepared h =>
  obtain ⟨h0, fs, entries, pf, s, h1, h2, h3, h4, h5, h6, h7, h8⟩ := h
  dsimp only at h0 h1 h2 h3 h4 h5 h7 h8
  obtain ⟨i2, i3⟩ := hin _ _ h1
  obtain ⟨hsort, hk⟩ := imported_keys en.crc en.srt en.mkMask en.rd (en.decOf b.info) en.upper en.lower fs plainOf i2 i3 entries pf (h3 hsmall)
  have hk' : ∀ k ∈ entries.map (·.1), (keyToTile k).Valid ∧ (keyToTile k).z = 10 := by
    intro k hk''
    obtain ⟨x, hx, rfl⟩ := List.mem_map.1 hk''
    exact hk x hx
  obtain ⟨_, _, hmax, _⟩ := C30_complete _ _ hk' 10 en.workers (by omega) hw _ _ s h5 h6
  exact ⟨by rw [h8, hmax], fs, h1⟩

theorem osm_in (hS : S.Ok t e g) (hD : S.Fits data) (xs : List (List Inserted)) (m : MetaTable) (h : (S.env data).loads false true xs m) :
    ((S.env data).decOf m).length ≤ 2 ^ 64 ∧ (∀ x ∈ xs.flatten, Importable (S.env data).mkMask ((S.env data).decOf m) (plainOf) x) ∧ xs.flatten.length < 2 ^ 32 := by
  obtain ⟨_, _, fs, rfl, h⟩ := h
  obtain ⟨names, tbl, hl⟩ := osm_loaded hS.shipped hS.numerals hD.toGoodData h
  obtain ⟨h1, h2, h3, h4⟩ := osm_importable hS hD h hl
  refine ⟨by rw [h1]; exact h2, fun x hx => ?_, by rw [whole_length]; exact h3⟩
  obtain ⟨f, hf, rfl⟩ := mem_whole.1 hx
  exact (h4 f hf).1

/-- the settings of the preparation: nothing is prepared -/
theorem ctx_first {base : GetCtx} {b1 b2 : Bytes} {names : List Bytes} {tbl : List Meta}
    (h1 : loadLayerNames (some b1) = .ok names) (h2 : loadSharedMetadata (some b2) = .ok tbl) :
    makeRenderCtx base none ⟨none, some b1, some b2⟩ =
      .ok { base with maxPrepared := -1, seaside := [kEmptyRoot], layerNames := names, dec := tbl, ignorePrepared := false, ignoreSeaside := false,
                      label := none, aggLines := false, aggPolygons := false, dropSubpixel := true } := by
  unfold makeRenderCtx
  dsimp only
  rw [Res.ok_bind, Res.ok_bind, h1, Res.ok_bind, h2, Res.ok_bind]
  rfl

/-- After an import the server starts: it can read the levels that are prepared, the names of the layers and the table of the shared metadata. -/
theorem C68_starts (hS : S.Ok t e g) (hD : S.Fits data) (runs : List (List String)) (hacts : changes runs = [.load false true, .pack, .tiles]) (a b : TileDb MetaTable)
    (hr : Imports (importParts (S.env data)) runs a b) (hsmall : SmallPacks b.features) :
    ∃ ctx, makeRenderCtx S.base (preparedString b.maxPrepared) b.info = .ok ctx ∧ ctx.maxPrepared = 10 := by
  obtain ⟨h1, _, _, _, fs, _, h2⟩ := imports_loaded (S.env data) false true hS.work (fun fs m h => (osm_in hS hD fs m h).2) runs hacts a b hr hsmall
  obtain ⟨names, tbl, hl⟩ := osm_loaded hS.shipped hS.numerals hD.toGoodData h2
  obtain ⟨b1, b2, h3, h4, h5⟩ := hl.table
  rw [h1, h3]
  exact ⟨_, ctx_of (by norm_num) h4 h5, rfl⟩

/-- no line that is drawn of a tile has 2^29 points: neither a line of the data nor one joined of lines (C62) -/
def Spec.OsmSetting.ShortLines (S : OsmSetting) (data : List Datum) (ctx : GetCtx) (q : Tile) : Prop :=
  ∀ fs m, OsmLoads S.prof S.profile S.numeral data fs m → ∀ gs i, (∀ x ∈ gs, (∃ t, x = seaSquare t) ∨ ∃ f ∈ fs.flatten, StoredAs (fun l => S.rd (S.mkMask l) q.z) f x) →
    ∀ f ∈ candidates (drawing ctx 10 q).toRenderCtx (specOf q) (ofLayer gs i), NoLongLine (drawing ctx 10 q).toRenderCtx q f

/-- Whatever is imported with a shipped profile, in any number of runs of the import program that load, pack and prepare, with any number of threads: the
server answers every request for a tile, and
* everything that a client sees is an object of the file: in the layer that the table of the profile (C66) gives for its tags, with its id, its type, exactly
  the attributes of the table, at the levels of the table, within the margin of the tile;
* every node that the table gives a layer for is seen, in the tile where the Mercator projection puts it, at its place to a unit. -/
theorem C68_served (hS : S.Ok t e g) (hD : S.Fits data) (runs : List (List String)) (hacts : changes runs = [.load false true, .pack, .tiles]) (a b : TileDb MetaTable)
    (hr : Imports (importParts (S.env data)) runs a b) (hsmall : SmallPacks b.features) (hsize : b.pf.reopen.size < 2 ^ 64) (features : List (UInt64 × Bytes))
    (hdb : EntriesOf b.features features) (ctx : GetCtx) (hctx : makeRenderCtx S.base (preparedString b.maxPrepared) b.info = .ok ctx)
    (q : Tile) (hv : q.Valid) (hz : q.z ≤ 20) (hshort : S.ShortLines data ctx q) :
    ∃ bytes layers, getTile b.tiles features b.pf.reopen ctx q = .ok (if bytes = [] then none else some (ctx.encode bytes)) ∧
      (bytes.length < 2 ^ 32 → clientTile bytes = some layers ∧ (bytes = [] ↔ layers = [])) ∧
      (∀ L ∈ layers, L.version = 2 ∧ L.extent = 4096 ∧ L.features ≠ [] ∧ ∀ c ∈ L.features,
        ∃ d ∈ data, ∃ r, d.rule t = some r ∧ L.name = r.layer ∧ (c.id : Int) = d.id % 2 ^ 64 ∧ c.type = d.type ∧
          c.tags.Perm (r.shown S.numeral S.prof.toDouble (tagValue d.tags)) ∧
          (∃ z, levelFor (areaOf S.prof (d.obj S.profile S.numeral)) r.zoom = some z ∧ z ≤ q.z) ∧
          ∀ part ∈ c.parts, ∀ p ∈ part.points, InMargin e q.z p) ∧
      ∀ d ∈ data, ∀ l, d.shape = .node (some l) → ∀ r, d.rule t = some r →
        ∀ z, levelFor (areaOf S.prof (d.obj S.profile S.numeral)) r.zoom = some z → z ≤ q.z → WellInside g q l →
        (∀ d' ∈ data, d'.id % 2 ^ 64 = d.id % 2 ^ 64 → d'.type = 1 → d' = d) →
        slippyTile q.z l = q ∧ ∃ L ∈ layers, L.name = r.layer ∧ ∃ c ∈ L.features, (c.id : Int) = d.id % 2 ^ 64 ∧ c.type = 1 ∧
          c.tags.Perm (r.shown S.numeral S.prof.toDouble (tagValue d.tags)) ∧
          ∃ cx cy : Int, ⟨[⟨cx, cy⟩], false⟩ ∈ c.parts ∧ |(cx : ℝ) - (mapX l * 2 ^ q.z - q.x) * 4096| ≤ g / 2 ^ (20 - q.z) + 1 ∧
            |(cy : ℝ) - (mapY l * 2 ^ q.z - q.y) * 4096| ≤ g / 2 ^ (20 - q.z) + 1 := by
  obtain ⟨px, hgeo, hconv⟩ := hS.places
  obtain ⟨inter, clipper, correct, hlib, hclip⟩ := hS.clip
  obtain ⟨simplify, hagg⟩ := hS.joins
  obtain ⟨g1, g2, g3⟩ := hS.error
  have hin := osm_in hS hD
  obtain ⟨hmax, _, _, _, fs0, _, hload0⟩ := imports_loaded (S.env data) false true hS.work (fun fs m h => (hin fs m h).2) runs hacts a b hr hsmall
  obtain ⟨names0, tbl0, hl0⟩ := osm_loaded hS.shipped hS.numerals hD.toGoodData hload0
  obtain ⟨b1, b2, h3, h4, h5⟩ := hl0.table
  rw [hmax, h3] at hctx
  rw [ctx_of (by norm_num) h4 h5] at hctx
  injection hctx with hctx
  have hctxOf : (S.env data).ctxOf b.info = { ctx with maxPrepared := -1 } := by
    show (match makeRenderCtx S.base none b.info with | .ok c => c | _ => S.base) = _
    rw [h3, ← hctx, ctx_first h4 h5]
  have hdec0 : (S.env data).decOf b.info = tbl0 := (osm_importable hS hD hload0 hl0).1
  obtain ⟨_, ⟨_, _, fs, rfl, hload⟩, hserve⟩ := C62_served (S.env data) false true hS.sorts hS.masks hS.work hin runs hacts a b hr hsmall hsize features hdb
    ctx ⟨-1, hctxOf⟩ (by rw [← hctx]; exact hS.reads) (by rw [hdec0, ← hctx]) ⟨by rw [← hctx], by rw [← hctx], by rw [← hctx], by rw [← hctx]⟩
    e g1 g2 inter clipper correct hlib (by rw [← hctx]; exact hclip) simplify (by intro z fs out h; rw [← hctx]; exact hagg z fs out h)
  obtain ⟨names, tbl, hl⟩ := osm_loaded hS.shipped hS.numerals hD.toGoodData hload
  obtain ⟨_, _, _, himp⟩ := osm_importable hS hD hload hl
  have hnames : ctx.layerNames = names := by
    obtain ⟨b1', b2', k1, k2, k3⟩ := hl.table
    rw [h3] at k1
    injection k1 with _ k1 _
    rw [← k1, h4] at k2
    injection k2 with k2
    rw [← hctx]
    exact k2
  obtain ⟨bytes, layers, m1, m2, m3, m4⟩ := hserve (fun x hx => by obtain ⟨f, hf, rfl⟩ := mem_whole.1 hx; rw [hnames]; exact (himp f hf).2.1) (by rw [hnames]; exact hl.few.1) []
    ⟨by rw [← hctx]; rfl, by rw [← hctx]; simp, by simp⟩ q hv hz (.inr (.inr (.inr (by simp)))) (fun x hx => by obtain ⟨f, hf, rfl⟩ := mem_whole.1 hx; exact (himp f hf).2.2 q.z hz)
    (fun gs i h => hshort fs b.info hload gs i (fun y hy => (h y hy).imp_right (by rintro ⟨x, hx, hs⟩; obtain ⟨f, hf, rfl⟩ := mem_whole.1 hx; exact ⟨f, hf, hs⟩)))
  have htype : ∀ f ∈ fs.flatten, ∀ d : Datum, readOsm S.prof.conv d.shape = .ok f.geometry → f.geometry ≠ .null → typeOf f.geometry = d.type := by
    intro f _ d hread hne
    rcases (readOsm_from S.prof.conv hread).2.2 with h | h
    · exact absurd h hne
    · cases hsh : d.shape with
      | node _ => rw [hsh] at h; obtain ⟨x, h⟩ := h; simp [h, Datum.type, hsh, typeOf]
      | way _ => rw [hsh] at h; obtain ⟨x, _, h⟩ := h; simp [h, Datum.type, hsh, typeOf]
      | area _ => rw [hsh] at h; obtain ⟨x, y, h⟩ := h; simp [h, Datum.type, hsh, typeOf]
  refine ⟨bytes, layers, m1, m2, fun L hL => ?_, fun d hd l hsh r hrule z hzl hzq hwell hone => ?_⟩
  · obtain ⟨k1, k2, k3, i, k4, k5⟩ := m3 L hL
    refine ⟨k1, k2, k3, fun c hc => ?_⟩
    obtain ⟨k6, k7⟩ := k5 c hc
    rcases k6 with ⟨_, _, _, x, hx, _⟩ | ⟨y, hy, hshow, hi, hid, hty, htags⟩
    · cases hx
    · obtain ⟨f, hf, rfl⟩ := mem_whole.1 hy
      dsimp only [whole] at hshow hi hid hty htags
      obtain ⟨d, hd, r, hr', hst, hne, _⟩ := hl.from_data f hf
      refine ⟨d, hd, r, hr', ?_, by rw [hid]; exact hst.id, ?_, ?_, ⟨f.zmin, hst.first, hshow.1⟩, k7⟩
      · have := hst.layer
        rw [hi, ← hnames, k4] at this
        injection this
      · rw [hty]; exact htype f hf d hst.geometry hne
      · exact htags.trans (tags_perm hS.shipped hS.numerals hS.doubles (hD.texts d hd) hr' hst).1
  · have hp : OnMap l := hD.places d hd l (by rw [hsh]; simp [shapeNodes])
    have hread : readOsm S.prof.conv d.shape = .ok (.point [latlngToFixed px l]) := by rw [hsh, hconv]; rfl
    obtain ⟨f, hf, hst, hde⟩ := hl.all_data d hd r _ hrule hread (by simp)
    have hgf : f.geometry = .point [latlngToFixed px l] := by
      have := hst.geometry
      rw [show (d.obj S.profile S.numeral).shape = d.shape from rfl, hread] at this
      injection this with this
      exact this.symm
    obtain ⟨t1, x, y, t2, t3⟩ := C64_tile g3 hgeo l hp q hz hwell
    obtain ⟨x', y', t2', _, _, t4, t5⟩ := C64_near g3 hgeo l hp
    rw [t2] at t2'
    injection t2' with hx hy
    have hx : x = x' := by exact_mod_cast hx
    have hy : y = y' := by exact_mod_cast hy
    subst x' y'
    have hz1 : f.zmin = z := by
      have := hst.first
      rw [hzl] at this
      injection this with this
      exact this.symm
    have huniq : ∀ x ∈ (fs.map (List.map whole)).flatten, x.feature.layer = f.layer → x.feature.id = f.id → typeOf x.feature.geometry = 1 → x.feature = f := by
      intro x hx _ hid hty
      obtain ⟨f', hf', rfl⟩ := mem_whole.1 hx
      dsimp only [whole] at hid hty ⊢
      obtain ⟨d', hd', r', hr', hst', hne', hde'⟩ := hl.from_data f' hf'
      have e1 : d'.type = 1 := by rw [← htype f' hf' d' hst'.geometry hne', hty]
      have e2 : d'.id % 2 ^ 64 = d.id % 2 ^ 64 := by
        have a1 : (f'.id : Int) = d'.id % 2 ^ 64 := hst'.id
        have a2 : (f.id : Int) = d.id % 2 ^ 64 := hst.id
        rw [← a1, ← a2, hid]
      rw [hone d' hd' e2 e1] at hde'
      exact describes_unique hl.nodup hde' hde
    obtain ⟨L, n1, n2, c, n3, n4, n5, n6, n7⟩ := m4 f (mem_whole.2 ⟨f, hf, rfl⟩) (by omega) (by rw [hst.last]; omega) huniq _ hgf x y (by rw [t2]; simp) t3
    refine ⟨t1, L, n1, ?_, c, n3, by rw [n4]; exact hst.id, n5, n6.trans (tags_perm hS.shipped hS.numerals hS.doubles (hD.texts d hd) hrule hst).1, _, _, n7, rel_near hz t4, rel_near hz t5⟩
    have := hst.layer
    rw [← hnames, n2] at this
    injection this

theorem load_ends (hS : S.Ok t e g) (hD : S.Fits data) (objs : List (List (OsmObj LatLng))) (hperm : objs.flatten.Perm (data.map (Datum.obj S.profile S.numeral)))
    (s : HandlerShared × List (HandlerPc LatLng)) (hr : Reach (LoadStep S.prof) (loadInit objs) s) :
    .failed ∉ s.2 ∧ ∃ (s' : HandlerShared × List (HandlerPc LatLng)) (fs : List (List Feature)) (b1 b2 : Bytes), Reach (LoadStep S.prof) s s' ∧ s'.2 = fs.map (.next [] ·) ∧ s'.1.metas.queue = [] ∧ loadStore s'.1 = .ok (b1, b2) := by
  have hobj : ∀ o ∈ objs.flatten, ∃ d ∈ data, o = d.obj S.profile S.numeral := by
    intro o ho
    obtain ⟨d, h1, h2⟩ := List.mem_map.1 (hperm.mem_iff.1 ho)
    exact ⟨d, h1, h2.symm⟩
  have hub : ∀ o ∈ objs.flatten, Fine S.prof o := by
    intro o ho
    obtain ⟨d, h1, rfl⟩ := hobj o ho
    exact hD.fine d h1
  have hgood : ∀ o ∈ objs.flatten, zoomOf S.prof o ≠ none → layerName S.prof o ≠ [] ∧ readOsm S.prof.conv o.shape ≠ .throw_ := by
    intro o ho hz
    obtain ⟨d, h1, rfl⟩ := hobj o ho
    have hm := shipped_matches hS.shipped S.numeral d.tags d.shape
    cases hd : decideBy (t.of d.shape) (tagValue d.tags) with
    | none =>
      rw [hd] at hm
      exact absurd (matches_none S.prof S.numeral (o := d.obj S.profile S.numeral) hm (hD.readable d h1)) hz
    | some r =>
      rw [hd] at hm
      rw [(matches_says S.prof S.numeral (o := d.obj S.profile S.numeral) hm (hD.readable d h1)).2.1]
      exact ⟨rule_layer hS.shipped hd, hD.readable d h1⟩
  refine ⟨C50_no_failure S.prof objs hub hgood s hr, ?_⟩
  obtain ⟨s', fs, h1, h2, h3⟩ := C50_can_end S.prof objs hub hgood s hr
  have hr' := reach_trans hr h1
  obtain ⟨b1, b2, h4⟩ : ∃ b1 b2, loadStore s'.1 = .ok (b1, b2) := by
    obtain ⟨b1, b2, _, _, h4, _⟩ := C50_load S.prof objs hub (osm_len hS.shipped hS.numerals hD.toGoodData hperm) s' hr' fs h2 h3
    exact ⟨b1, b2, h4⟩
  exact ⟨s', fs, b1, b2, h1, h2, h3, h4⟩

/-- Nothing in the data stops the loading: however the objects were spread over threads and whatever happened so far, it can come to its end. -/
theorem C68_load_ends (hS : S.Ok t e g) (hD : S.Fits data) (objs : List (List (OsmObj LatLng))) (hperm : objs.flatten.Perm (data.map (Datum.obj S.profile S.numeral)))
    (s : HandlerShared × List (HandlerPc LatLng)) (hr : Reach (LoadStep S.prof) (loadInit objs) s) :
    .failed ∉ s.2 ∧ ∃ s' fs m, Reach (LoadStep S.prof) s s' ∧ s'.2 = fs.map (.next [] ·) ∧ OsmLoads S.prof S.profile S.numeral data fs m := by
  obtain ⟨h0, s', fs, b1, b2, h1, h2, h3, h4⟩ := load_ends hS hD objs hperm s hr
  exact ⟨h0, s', fs, ⟨none, some b1, some b2⟩, h1, h2, objs, s', b1, b2, hperm, reach_trans hr h1, h2, h3, h4, rfl⟩

/-- if the loading can do less then the whole import can do less -/
theorem run_mono {ι : Type} {p p' : ImportParts ι} (h1 : p.profileGood = p'.profileGood) (h2 : p.noInfo = p'.noInfo) (h3 : p.stats = p'.stats) (h4 : p.pack = p'.pack) (h5 : p.tiles = p'.tiles)
    (hl : ∀ c o a ok b, p.load c o a ok b → p'.load c o a ok b) {tasks : List String} {a b : TileDb ι} {ok : Bool} (h : runImport p tasks a ok b) : runImport p' tasks a ok b := by
  have seq_mono : ∀ {s t t' : ImportStage ι}, (∀ a ok b, t a ok b → t' a ok b) → ∀ a ok b, ImportStage.seq s t a ok b → ImportStage.seq s t' a ok b := by
    rintro s t t' ht a ok b (h | ⟨c, h, h'⟩)
    · exact .inl h
    · exact .inr ⟨c, h, ht _ _ _ h'⟩
  have seq_mono' : ∀ {s s' t : ImportStage ι}, (∀ a ok b, s a ok b → s' a ok b) → ∀ a ok b, ImportStage.seq s t a ok b → ImportStage.seq s' t a ok b := by
    rintro s s' t hs a ok b (⟨h0, h⟩ | ⟨c, h, h'⟩)
    · exact .inl ⟨h0, hs _ _ _ h⟩
    · exact .inr ⟨c, hs _ _ _ h, h'⟩
  unfold runImport at h ⊢
  rw [← h1, ← h2, ← h3, ← h4, ← h5]
  refine seq_mono (seq_mono (seq_mono ?_)) _ _ _ h
  rintro a ok b ⟨c, hc, h⟩
  refine ⟨c, seq_mono' ?_ _ _ _ hc, h⟩
  intro a ok b h
  unfold ImportStage.guard at h ⊢
  split at h
  · rw [if_pos (by assumption)]; exact hl _ _ _ _ _ h
  · rw [if_neg (by assumption)]; exact h

/-- the same for the import of a database -/
theorem loads_mono {ι : Type} {en : ImportEnv ι} {loads : Bool → Bool → List (List Inserted) → ι → Prop} (hl : ∀ c o xs m, en.loads c o xs m → loads c o xs m) {tasks : List String}
    {a b : TileDb ι} {ok : Bool} (h : runImport (importParts en) tasks a ok b) : runImport (importParts { en with loads := loads }) tasks a ok b := by
  refine run_mono (p := importParts en) (p' := importParts { en with loads := loads }) rfl rfl rfl rfl rfl ?_ h
  rintro c o a ok b ⟨fs, i, s, h1, h2⟩
  exact ⟨fs, i, s, hl _ _ _ _ h1, h2⟩

/-- the import completes with any result of the loading -/
theorem osm_completes (hS : S.Ok t e g) (hD : S.Fits data) (tasks : List String) (hf : Asked tasks "features") (hp : Asked tasks "pack") (ht : Asked tasks "tiles")
    (hc : ¬ Asked tasks "coastlines") (hbatch : 0 < S.batch) (hmem : S.mem < 2 ^ 62)
    (hsome : ∃ d ∈ data, ∃ r gm, d.rule t = some r ∧ readOsm S.prof.conv d.shape = .ok gm ∧ gm ≠ .null)
    {fs : List (List Feature)} {m : MetaTable} (hload : OsmLoads S.prof S.profile S.numeral data fs m)
    (hroom : insertBytes (fs.map (List.map whole)) ≤ S.mem ∧
      (∀ u : Tile, u.Valid → u.z = 10 → tileBytes S.mkMask ((S.env data).decOf m) (fs.map (List.map whole)) u ≤ 2 ^ 30) ∧
      packBytes S.mkMask ((S.env data).decOf m) (fs.map (List.map whole)) < 2 ^ 62)
    (hshort : ∀ m ctx, makeRenderCtx S.base none m = .ok ctx → ∀ q : Tile, q.Valid → q.z ≤ 10 → S.ShortLines data ctx q) (a : TileDb MetaTable) :
    ∃ b, runImport (importParts { S.env data with loads := fun coast osm xs m' => coast = false ∧ osm = true ∧ xs = fs.map (List.map whole) ∧ m' = m }) tasks a true b ∧
      b.maxPrepared = some 10 ∧ SmallPacks b.features ∧ b.pf.reopen.size < 2 ^ 63 := by
  obtain ⟨names, tbl, hl⟩ := osm_loaded hS.shipped hS.numerals hD.toGoodData hload
  obtain ⟨hdec, h1, h2, himp⟩ := osm_importable hS hD hload hl
  obtain ⟨r1, r2, r3⟩ := hroom
  obtain ⟨b1, b2, h3, h4, h5⟩ := hl.table
  have hctx := ctx_first (base := S.base) h4 h5
  have hctxOf : (S.env data).ctxOf m = { S.base with maxPrepared := -1, seaside := [kEmptyRoot], layerNames := names, dec := tbl, ignorePrepared := false, ignoreSeaside := false, label := none, aggLines := false, aggPolygons := false, dropSubpixel := true } := by
    show (match makeRenderCtx S.base none m with | .ok c => c | _ => S.base) = _
    rw [h3, hctx]
  have hne : fs.flatten ≠ [] := by
    obtain ⟨d, hd, r, gm, k1, k2, k3⟩ := hsome
    obtain ⟨f, hf, _⟩ := hl.all_data d hd r gm k1 k2 k3
    exact List.ne_nil_of_mem hf
  obtain ⟨inter, clipper, correct, hlib, hclip⟩ := hS.clip
  obtain ⟨simplify, hagg⟩ := hS.joins
  obtain ⟨b, c1, c2, c3, c4, c5⟩ := C67_completes { S.env data with loads := fun coast osm xs m' => coast = false ∧ osm = true ∧ xs = fs.map (List.map whole) ∧ m' = m } tasks hf hp ht rfl hS.sorts hS.masks hbatch hmem false (by simp [hc]) (fs.map (List.map whole)) m ⟨rfl, rfl, rfl, rfl⟩
    (by rw [hdec]; exact h1) (fun x hx => by obtain ⟨f, hf, rfl⟩ := mem_whole.1 hx; exact (himp f hf).1) (by rw [whole_length]; exact h2) (by
      obtain ⟨f, hf⟩ := List.exists_mem_of_ne_nil _ hne
      exact List.ne_nil_of_mem (mem_whole.2 ⟨f, hf, rfl⟩)) r1 r2 r3
    { label := by rw [hctxOf]
      rd := by rw [hctxOf]; exact hS.reads
      dec := by rw [hctxOf, hdec]
      layers := fun x hx => by obtain ⟨f, hf, rfl⟩ := mem_whole.1 hx; rw [hctxOf]; exact (himp f hf).2.1
      some := by rw [hctxOf]; exact hl.few.1
      sea := ⟨[], by rw [hctxOf]; exact ⟨rfl, by simp, by simp⟩⟩
      lib := ⟨e, inter, clipper, correct, hS.error.1, hS.error.2.1, hlib, by rw [hctxOf]; exact hclip⟩
      agg := ⟨simplify, by rw [hctxOf]; exact hagg⟩
      draw := fun z hz x hx => by obtain ⟨f, hf, rfl⟩ := mem_whole.1 hx; exact (himp f hf).2.2 z (by omega)
      short := by
        intro q hv hz gs j hgs f hf
        have := hshort m _ (by rw [h3]; exact hctx) q hv hz fs m hload gs j
          (fun y hy => (hgs y hy).imp_right (by rintro ⟨x, hx, hs⟩; obtain ⟨f, hf, rfl⟩ := mem_whole.1 hx; exact ⟨f, hf, hs⟩)) f
        rw [drawing, if_pos hz] at this
        rw [hctxOf] at hf ⊢
        exact this hf } a
  refine ⟨b, c1, c3, c4, ?_⟩
  have c5' : b.pf.reopen.size ≤ insertBytes (fs.map (List.map whole)) + packBytes S.mkMask ((S.env data).decOf m) (fs.map (List.map whole)) + 1 := c5
  omega

/-- The import of any such file can end with exit code 0, on top of any database, if memory and file sizes suffice: whatever the features are that the
loading hands over. -/
theorem C68_completes (hS : S.Ok t e g) (hD : S.Fits data) (tasks : List String) (hf : Asked tasks "features") (hp : Asked tasks "pack") (ht : Asked tasks "tiles")
    (hc : ¬ Asked tasks "coastlines") (hbatch : 0 < S.batch) (hmem : S.mem < 2 ^ 62)
    -- something is imported
    (hsome : ∃ d ∈ data, ∃ r gm, d.rule t = some r ∧ readOsm S.prof.conv d.shape = .ok gm ∧ gm ≠ .null)
    -- memory and sizes (C67)
    (hroom : ∀ fs m, OsmLoads S.prof S.profile S.numeral data fs m → insertBytes (fs.map (List.map whole)) ≤ S.mem ∧
      (∀ u : Tile, u.Valid → u.z = 10 → tileBytes S.mkMask ((S.env data).decOf m) (fs.map (List.map whole)) u ≤ 2 ^ 30) ∧
      packBytes S.mkMask ((S.env data).decOf m) (fs.map (List.map whole)) < 2 ^ 62)
    (hshort : ∀ m ctx, makeRenderCtx S.base none m = .ok ctx → ∀ q : Tile, q.Valid → q.z ≤ 10 → S.ShortLines data ctx q) (a : TileDb MetaTable) :
    ∃ b, runImport (importParts (S.env data)) tasks a true b ∧ b.maxPrepared = some 10 ∧ SmallPacks b.features ∧ b.pf.reopen.size < 2 ^ 63 := by
  obtain ⟨_, s', fs, m, _, _, hload⟩ := C68_load_ends hS hD [data.map (Datum.obj S.profile S.numeral)] (by simp) _ .refl
  obtain ⟨b, h1, h2⟩ := osm_completes hS hD tasks hf hp ht hc hbatch hmem hsome hload (hroom fs m hload) hshort a
  refine ⟨b, loads_mono (loads := (S.env data).loads) ?_ h1, h2⟩
  rintro c o xs m' ⟨h3, h4, h5, h6⟩
  exact ⟨h3, h4, fs, h5, h6 ▸ hload⟩

end

/-! ### a city, from the file to the client -/

noncomputable def osmDemo : OsmSetting where
  prof := ⟨latlngToFixed (fun p => ⟨⌊mapX p * 2 ^ 32⌋, ⌊mapY p * 2 ^ 32⌋⟩), fun _ => .ok 0, fun _ => none, fun n => n.toNat % 2 ^ 64⟩
  profile := fullProfile
  numeral := fromCharsI64
  base := C62_ctx
  crc := fun _ => 0
  srt := keySort
  mkMask := C52_mk
  rd := C52_rd
  upper := 1000
  lower := 500
  mem := 2 ^ 50
  batch := 1
  workers := 2

/-- where the city is: 0.62506103515625 of the width and of the height of the map -/
noncomputable def osmDemoPlace : LatLng := C64_place (2684616704 / 2 ^ 32) (2684616704 / 2 ^ 32)
noncomputable def osmDemoCity : Datum := ⟨7, demoCity, .node (some osmDemoPlace)⟩
/-- the city, and a bench, which no rule wants -/
noncomputable def osmDemoData : List Datum := [osmDemoCity, ⟨8, [(b!"amenity", b!"bench")], .node (some osmDemoPlace)⟩]

def osmDemoMetas : List Meta := [⟨b!"name", encodeString b!"Darmstadt"⟩, ⟨b!"place", encodeString b!"city"⟩, ⟨b!"population", encodeNumeric 159207⟩]
def osmDemoFeature (i : Nat) : Feature := ⟨7, i, 5, 21, osmDemoMetas, .point [⟨2684616704, 2684616704⟩]⟩

theorem fromChars_range {s : Bytes} {n : Int} (h : fromCharsI64 s = some n) : -(2 : Int) ^ 63 ≤ n ∧ n < (2 : Int) ^ 63 := by
  simp only [fromCharsI64] at h
  generalize (if s.head? = some 45 then -(digitVal _ : Int) else (digitVal _ : Int)) = k at h
  by_cases h1 : List.takeWhile (fun c => decide (48 ≤ c.toNat) && decide (c.toNat ≤ 57)) (if s.head? = some 45 then s.drop 1 else s) = []
  · rw [if_pos h1] at h; cases h
  · rw [if_neg h1] at h
    by_cases h2 : -(2 : Int) ^ 63 ≤ k ∧ k < (2 : Int) ^ 63
    · rw [if_pos h2] at h
      injection h with h
      exact h ▸ h2
    · rw [if_neg h2] at h; cases h

theorem keep_all (l : Line) : keep (C52_rd (C52_mk l) 0) l = l := by
  unfold keep C52_rd C52_mk
  induction l with
  | nil => rfl
  | cons a l ih => simpa using ih

theorem osmDemo_ok : osmDemo.Ok fullTables 0 1 where
  shipped := .full
  numerals := fun s n h => fromChars_range h
  doubles := fun n => Nat.mod_lt _ (by norm_num)
  sorts := C13_sort_exists
  masks := fun l z => by simp [osmDemo, C52_mk, C52_rd]
  keeps := fun l z h => by
    show keep (C52_rd (C52_mk l) 0) l ≠ []
    rw [keep_all]; exact h
  work := by decide
  reads := rfl
  error := ⟨le_rfl, by norm_num, le_rfl⟩
  clip := ⟨C62_inter, C62_clipper, id, C62_lib, rfl⟩
  joins := ⟨fun _ l => l, by intro z fs out h; show C62_agg z fs = out; rw [C62_agg, h]⟩
  places := ⟨_, C64_lib, rfl⟩

theorem osmDemo_place : osmDemo.prof.conv osmDemoPlace = ⟨2684616704, 2684616704⟩ := by
  obtain ⟨h1, h2⟩ := C64_place_at (2684616704 / 2 ^ 32) (2684616704 / 2 ^ 32)
  have e : osmDemo.prof.conv osmDemoPlace = latlngToFixed (fun p => ⟨⌊mapX p * 2 ^ 32⌋, ⌊mapY p * 2 ^ 32⌋⟩) osmDemoPlace := rfl
  rw [e, latlngToFixed, osmDemoPlace]
  dsimp only
  rw [h1, h2]
  have : ⌊(2684616704 / 2 ^ 32 * 2 ^ 32 : ℝ)⌋ = 2684616704 := by
    rw [div_mul_cancel₀ _ (by positivity), Int.floor_eq_iff]
    norm_num
  simp only [this]
  decide

theorem osmDemo_good : GoodData osmDemo.prof osmDemo.profile osmDemo.numeral osmDemoData := by
  have hnode : ∀ d ∈ osmDemoData, d.shape = .node (some osmDemoPlace) := by
    intro d hd
    simp only [osmDemoData, List.mem_cons, List.not_mem_nil, or_false] at hd
    rcases hd with rfl | rfl <;> rfl
  have hfine : ∀ d ∈ osmDemoData, Fine osmDemo.prof (d.obj osmDemo.profile osmDemo.numeral) ∧ readOsm osmDemo.prof.conv d.shape ≠ .throw_ := by
    intro d hd
    exact C66_fine osmDemo.prof osmDemo.numeral .full d.id d.tags d.shape (by rw [hnode d hd]; simp)
  refine ⟨fun d hd => (hfine d hd).1, fun d hd => (hfine d hd).2, fun d hd l hl => ?_, fun d hd ps h => ?_, fun d hd => ?_, fun d hd => ?_, by simp [osmDemoData]⟩
  · rw [hnode d hd] at hl
    simp only [shapeNodes, List.mem_singleton, Option.some.injEq] at hl
    rw [hl]
    exact C64_place_on (by norm_num) (by norm_num) (by norm_num) (by norm_num)
  · rw [hnode d hd] at h; cases h
  · simp only [osmDemoData, List.mem_cons, List.not_mem_nil, or_false] at hd
    rcases hd with rfl | rfl
    · show ∀ kv ∈ demoCity, kv.2.length < 2 ^ 32 - 1
      decide +kernel
    · show ∀ kv ∈ [(b!"amenity", b!"bench")], kv.2.length < 2 ^ 32 - 1
      decide +kernel
  · rw [hnode d hd]; simp [shapeSize, shapeNodes]

theorem osmDemo_rule : osmDemoCity.rule fullTables = some ⟨b!"cities", fromLevel 5, placeAttrs⟩ := by
  show decideBy fullTables.nodes (tagValue demoCity) = _
  rfl

theorem osmDemo_no_rule : (⟨8, [(b!"amenity", b!"bench")], .node (some osmDemoPlace)⟩ : Datum).rule fullTables = none := by
  show decideBy fullTables.nodes (tagValue [(b!"amenity", b!"bench")]) = none
  rfl

theorem osmDemo_loaded {fs : List (List Feature)} {m : MetaTable} {names : List Bytes} {tbl : List Meta}
    (h : OsmLoaded osmDemo.prof osmDemo.profile fullTables osmDemo.numeral osmDemoData fs m names tbl) : ∃ i < 13, fs.flatten = [osmDemoFeature i] := by
  have hread : readOsm osmDemo.prof.conv osmDemoCity.shape = .ok (.point [⟨2684616704, 2684616704⟩]) := by
    show Res.ok (readOsmNode osmDemo.prof.conv (some osmDemoPlace)) = _
    unfold readOsmNode
    dsimp only
    rw [osmDemo_place]
  have hall : ∀ f ∈ fs.flatten, ∃ i < 13, f = osmDemoFeature i ∧ Describes osmDemo.prof names (osmDemoCity.obj osmDemo.profile osmDemo.numeral) f := by
    intro f hf
    obtain ⟨d, hd, r, hr, hst, hne, hde⟩ := h.from_data f hf
    simp only [osmDemoData, List.mem_cons, List.not_mem_nil, or_false] at hd
    rcases hd with rfl | rfl
    · rw [osmDemo_rule] at hr
      injection hr with hr
      subst hr
      have h1 : f.metas = osmDemoMetas := by
        have hp := metas_perm Shipped.full osmDemo_rule hst
        have hq : (⟨b!"cities", fromLevel 5, placeAttrs⟩ : RuleOut).attributes osmDemo.numeral (tagValue osmDemoCity.tags) =
            [(b!"place", .text b!"city"), (b!"name", .text b!"Darmstadt"), (b!"population", .number 159207)] := by
          show RuleOut.attributes fromCharsI64 (tagValue demoCity) ⟨b!"cities", fromLevel 5, placeAttrs⟩ = _
          rfl
        rw [hq] at hp
        have hp2 : f.metas.Perm osmDemoMetas := by
          refine hp.trans ?_
          show List.Perm [⟨b!"place", encodeString b!"city"⟩, ⟨b!"name", encodeString b!"Darmstadt"⟩, ⟨b!"population", encodeNumeric 159207⟩] osmDemoMetas
          exact List.Perm.swap _ _ _
        have hs1 : f.metas.Pairwise (fun x y => bytesLe x.key y.key = true ∧ x.key ≠ y.key) := List.pairwise_map.1 hde.metas.sorted
        have hs2 : osmDemoMetas.Pairwise (fun x y => bytesLe x.key y.key = true ∧ x.key ≠ y.key) := by decide +kernel
        exact List.Perm.eq_of_pairwise (fun a b _ _ h h' => absurd (bytesLe_antisymm h.1 h'.1) h.2) hs1 hs2 hp2
      have h2 : f.geometry = .point [⟨2684616704, 2684616704⟩] := by
        have := hst.geometry
        rw [show (osmDemoCity.obj osmDemo.profile osmDemo.numeral).shape = osmDemoCity.shape from rfl, hread] at this
        injection this with this
        exact this.symm
      have h3 : f.id = 7 := by
        have : (f.id : Int) = 7 % 2 ^ 64 := hst.id
        omega
      have h4 : f.zmin = 5 := by
        have := hst.first
        injection this with this
        exact this.symm
      have h5 : f.layer < names.length := (List.getElem?_eq_some_iff.1 hst.layer).1
      refine ⟨f.layer, by have := h.few.2; omega, ?_, hde⟩
      have h6 := hst.last
      cases f
      simp only at h1 h2 h3 h4 h6
      rw [h1, h2, h3, h4, h6]
      rfl
    · rw [osmDemo_no_rule] at hr; cases hr
  obtain ⟨f, hf, _, hde⟩ := h.all_data osmDemoCity (by simp [osmDemoData]) _ _ osmDemo_rule hread (by simp)
  obtain ⟨i, hi, hfi, _⟩ := hall f hf
  refine ⟨i, hi, ?_⟩
  have hone : fs.flatten.length ≤ 1 := by
    have hn : isWanted osmDemo.prof ((⟨8, [(b!"amenity", b!"bench")], .node (some osmDemoPlace)⟩ : Datum).obj osmDemo.profile osmDemo.numeral) = false := by
      rw [Bool.eq_false_iff]
      intro hc
      obtain ⟨⟨r, hr⟩, _⟩ := (wanted_iff Shipped.full (d := ⟨8, [(b!"amenity", b!"bench")], .node (some osmDemoPlace)⟩) (by intro h; cases h)).1 hc
      rw [osmDemo_no_rule] at hr
      cases hr
    rw [h.once, osmDemoData, List.filter_cons]
    split
    · rw [List.filter_cons, hn]; simp
    · rw [List.filter_cons, hn]; simp
  have hx : f = osmDemoFeature i := hfi
  match hfs : fs.flatten, hone, hf with
  | [x], _, hf =>
    rw [List.mem_singleton] at hf
    rw [← hf, hx]

theorem osmDemo_sizes : ∀ i < 13, (match serializeFeature (fun _ => []) [] true (osmDemoFeature i), serializeFeature C52_mk [] false (osmDemoFeature i) with
    | .ok a, .ok b => decide (32 ≤ a.length ∧ a.length < 200 ∧ 32 ≤ b.length ∧ b.length < 200)
    | _, _ => false) = true := by decide +kernel

theorem osmDemo_result {fs : List (List Feature)} {m : MetaTable} (h : OsmLoads osmDemo.prof osmDemo.profile osmDemo.numeral osmDemoData fs m) :
    (osmDemo.env osmDemoData).decOf m = [] ∧ ∃ i < 13, fs.flatten = [osmDemoFeature i] := by
  obtain ⟨names, tbl, hl⟩ := osm_loaded Shipped.full (fun s n h => fromChars_range h) osmDemo_good h
  obtain ⟨i, hi, hfs⟩ := osmDemo_loaded hl
  refine ⟨?_, i, hi, hfs⟩
  have ht : tbl = [] := by
    rw [List.eq_nil_iff_forall_not_mem]
    intro x hx
    have h1 := (hl.several x).1 hx
    rw [hfs] at h1
    have h2 : osmDemoMetas.Nodup := by decide +kernel
    have h3 := List.nodup_iff_count_le_one.1 h2 x
    have h4 : [osmDemoFeature i].flatMap (·.metas) = osmDemoMetas := by simp [osmDemoFeature]
    rw [h4] at h1
    omega
  obtain ⟨b1, b2, h3, h4, h5⟩ := hl.table
  show (match loadSharedMetadata m.coding with | .ok tbl => tbl | _ => []) = []
  rw [h3]
  dsimp only
  rw [h5, ht]

theorem osmDemo_size {i : Nat} (hi : i < 13) : (∃ a, serializeFeature (fun _ => []) [] true (osmDemoFeature i) = .ok a ∧ 32 ≤ a.length ∧ a.length < 200) ∧
    ∃ b, serializeFeature C52_mk [] false (osmDemoFeature i) = .ok b ∧ 32 ≤ b.length ∧ b.length < 200 := by
  have := osmDemo_sizes i hi
  split at this
  · rename_i a b ha hb
    have := of_decide_eq_true this
    exact ⟨⟨a, ha, this.1, this.2.1⟩, b, hb, this.2.2⟩
  · cases this

theorem osmDemo_fits : osmDemo.Fits osmDemoData := by
  refine ⟨osmDemo_good, fun fs m h f hf b hb => ?_, fun d hd ps h => ?_⟩
  · obtain ⟨hd, i, hi, hfs⟩ := osmDemo_result h
    rw [hfs, List.mem_singleton] at hf
    subst hf
    rw [hd] at hb
    obtain ⟨⟨a, h1, h2, h3⟩, a', h4, h5, h6⟩ := osmDemo_size hi
    rcases hb with hb | hb
    · rw [h1] at hb; injection hb with hb; subst hb; omega
    · rw [show osmDemo.mkMask = C52_mk from rfl, h4] at hb; injection hb with hb; subst hb; omega
  · exfalso
    simp only [osmDemoData, List.mem_cons, List.not_mem_nil, or_false] at hd
    rcases hd with rfl | rfl <;> cases h

theorem osmDemo_short (ctx : GetCtx) (hctx : ctx.clip = C62_ctx.clip) (q : Tile) : osmDemo.ShortLines osmDemoData ctx q := by
  intro fs m h gs i hgs f hf
  obtain ⟨_, j, _, hfs⟩ := osmDemo_result h
  refine short_points fs.flatten (fun f hf => ?_) _ ?_ q gs i hgs f hf
  · rw [hfs, List.mem_singleton] at hf; subst hf; exact ⟨_, rfl⟩
  · show (drawing ctx 10 q).clip = _
    rw [drawing]
    split <;> exact hctx

theorem ctx_clip {base ctx : GetCtx} {pr : Option Bytes} {m : MetaTable} (h : makeRenderCtx base pr m = .ok ctx) : ctx.clip = base.clip := by
  unfold makeRenderCtx at h
  dsimp only at h
  have key : ∀ {mx : Int} {sea : List Nat}, (loadLayerNames m.names >>= fun names => loadSharedMetadata m.coding >>= fun dec =>
      (pure { base with maxPrepared := mx, seaside := sea, layerNames := names, dec := dec, ignorePrepared := false, ignoreSeaside := false,
                        label := none, aggLines := false, aggPolygons := false, dropSubpixel := true } : Res GetCtx)) = .ok ctx → ctx.clip = base.clip := by
    intro mx sea h
    obtain ⟨n, _, h⟩ := Res.bind_eq_ok.1 h
    obtain ⟨d, _, h⟩ := Res.bind_eq_ok.1 h
    rw [Res.pure_eq] at h
    injection h with h
    rw [← h]
  split at h
  · obtain ⟨x, _, h⟩ := Res.bind_eq_ok.1 h
    split at h
    · obtain ⟨y, _, h⟩ := Res.bind_eq_ok.1 h; exact key h
    · obtain ⟨y, _, h⟩ := Res.bind_eq_ok.1 h; exact key h
  · obtain ⟨x, _, h⟩ := Res.bind_eq_ok.1 h
    split at h
    · obtain ⟨y, _, h⟩ := Res.bind_eq_ok.1 h; exact key h
    · obtain ⟨y, _, h⟩ := Res.bind_eq_ok.1 h; exact key h

theorem osmDemo_room {fs : List (List Feature)} {m : MetaTable} (h : OsmLoads osmDemo.prof osmDemo.profile osmDemo.numeral osmDemoData fs m) : insertBytes (fs.map (List.map whole)) ≤ osmDemo.mem ∧
      (∀ u : Tile, u.Valid → u.z = 10 → tileBytes osmDemo.mkMask ((osmDemo.env osmDemoData).decOf m) (fs.map (List.map whole)) u ≤ 2 ^ 30) ∧
      packBytes osmDemo.mkMask ((osmDemo.env osmDemoData).decOf m) (fs.map (List.map whole)) < 2 ^ 62 := by
  classical
  obtain ⟨hd, i, hi, hfs⟩ := osmDemo_result h
  obtain ⟨⟨a, h1, h2, h3⟩, b, h4, h5, h6⟩ := osmDemo_size hi
  have hc : copies (whole (osmDemoFeature i)) ≤ 2 ^ 20 := by
    unfold copies
    exact (List.length_filter_le _ _).trans (le_of_eq cacheTiles_length)
  have hfs' : (fs.map (List.map whole)).flatten = [whole (osmDemoFeature i)] := by rw [← List.map_flatten, hfs]; rfl
  have hs : insertedSize (osmDemoFeature i) ≤ 200 := by unfold insertedSize; rw [h1]; dsimp only; omega
  have hx : indexedSize C52_mk [] (osmDemoFeature i) ≤ 200 := by unfold indexedSize; rw [h4]; dsimp only; omega
  have hm := Nat.mul_le_mul hc (Nat.add_le_add_right hs 15)
  have hm' := Nat.mul_le_mul hc (Nat.add_le_add_right hx 182)
  rw [hd, show osmDemo.mkMask = C52_mk from rfl, show osmDemo.mem = 2 ^ 50 from rfl]
  refine ⟨?_, fun u _ _ => ?_, ?_⟩
  · rw [insertBytes, hfs']
    simp only [List.map_cons, List.map_nil, List.sum_cons, List.sum_nil, show (whole (osmDemoFeature i)).feature = osmDemoFeature i from rfl]
    generalize copies (whole (osmDemoFeature i)) * _ = k at hm
    omega
  · rw [tileBytes, goesTo, hfs', List.filter_cons, List.filter_nil]
    split <;> simp [whole] <;> omega
  · rw [packBytes, hfs']
    simp only [List.map_cons, List.map_nil, List.sum_cons, List.sum_nil, show (whole (osmDemoFeature i)).feature = osmDemoFeature i from rfl]
    generalize copies (whole (osmDemoFeature i)) * (indexedSize C52_mk [] (osmDemoFeature i) + 182) = k at hm'
    omega

/-- All conditions are met: a file with a city and a bench is imported with full.lua, on top of anything; then the server starts, and who asks for the tile
12/2560/2560 sees the city, with its name and its population, within a unit of (1024, 1024). -/
theorem osmDemo_client (a : TileDb MetaTable) : ∃ (b : TileDb MetaTable) (ctx : GetCtx), Imports (importParts (osmDemo.env osmDemoData)) [["features", "pack", "tiles"]] a b ∧
    makeRenderCtx osmDemo.base (preparedString b.maxPrepared) b.info = .ok ctx ∧
    ∀ features, EntriesOf b.features features → ∃ bytes layers, getTile b.tiles features b.pf.reopen ctx ⟨2560, 2560, 12⟩ = .ok (if bytes = [] then none else some (ctx.encode bytes)) ∧
      (bytes.length < 2 ^ 32 → clientTile bytes = some layers) ∧ ∃ L ∈ layers, L.name = b!"cities" ∧ ∃ c ∈ L.features, c.id = 7 ∧ c.type = 1 ∧
        c.tags.Perm [(b!"place", .str b!"city"), (b!"name", .str b!"Darmstadt"), (b!"population", .double 159207)] ∧
        ∃ cx cy : Int, ⟨[⟨cx, cy⟩], false⟩ ∈ c.parts ∧ |(cx : ℝ) - 1024| ≤ 1 / 2 ^ 8 + 1 ∧ |(cy : ℝ) - 1024| ≤ 1 / 2 ^ 8 + 1 := by
  obtain ⟨b, h1, h2, h3, h4⟩ := C68_completes osmDemo_ok osmDemo_fits ["features", "pack", "tiles"] (.inr (by simp)) (.inr (by simp)) (.inr (by simp))
    (by simp [Asked]) (by decide) (by norm_num [osmDemo]) ⟨osmDemoCity, by simp [osmDemoData], _, _, osmDemo_rule, rfl, by simp [readOsmNode]⟩
    (fun fs m h => osmDemo_room h) (fun m ctx h q _ _ => osmDemo_short ctx (ctx_clip h) q) a
  have himp : Imports (importParts (osmDemo.env osmDemoData)) [["features", "pack", "tiles"]] a b := ⟨b, h1, rfl⟩
  have hacts : changes [["features", "pack", "tiles"]] = [.load false true, .pack, .tiles] := by simp [changes, actsOf, Asked]
  obtain ⟨ctx, h5, _⟩ := C68_starts osmDemo_ok osmDemo_fits _ hacts a b himp h3
  refine ⟨b, ctx, himp, h5, fun features hdb => ?_⟩
  obtain ⟨bytes, layers, k1, k2, _, k4⟩ := C68_served osmDemo_ok osmDemo_fits _ hacts a b himp h3 (by omega) features hdb ctx h5 ⟨2560, 2560, 12⟩ (by decide) (by decide)
    (osmDemo_short ctx (ctx_clip h5) _)
  obtain ⟨p1, p2⟩ := C64_place_at (2684616704 / 2 ^ 32) (2684616704 / 2 ^ 32)
  have hw : WellInside 1 ⟨2560, 2560, 12⟩ osmDemoPlace := by
    rw [WellInside, osmDemoPlace, p1, p2]
    norm_num [side]
  obtain ⟨_, L, m1, m2, c, m3, m4, m5, m6, cx, cy, m7, m8, m9⟩ := k4 osmDemoCity (by simp [osmDemoData]) osmDemoPlace rfl _ osmDemo_rule 5 rfl (by decide) hw (by
    intro d' hd' hid _
    simp only [osmDemoData, List.mem_cons, List.not_mem_nil, or_false] at hd'
    rcases hd' with rfl | rfl
    · rfl
    · exact absurd hid (by decide))
  refine ⟨bytes, layers, k1, fun h => (k2 h).1, L, m1, m2, c, m3, ?_, m5, m6, cx, cy, m7, ?_, ?_⟩
  · have : (c.id : Int) = 7 % 2 ^ 64 := m4
    omega
  · rw [osmDemoPlace, p1] at m8; norm_num at m8 ⊢; exact m8
  · rw [osmDemoPlace, p2] at m9; norm_num at m9 ⊢; exact m9

end Tiles
