import Verif.Model.TileBuilder
import Verif.Spec.MvtTile
import Verif.Props.C25
import Verif.Props.C27
import Verif.Props.C42
import Verif.Proof.FeatureIO
/- Helper lemmas for the tile builder. -/
namespace Tiles
open Spec

/-- the metadata that is exported -/
def Spec.exported (ms : List Meta) : List Meta :=
  ms.filter (fun m => !(decide (m.key = "layer".toUTF8.toList) || decide (("__".toUTF8.toList).isPrefixOf m.key)))

theorem hiddenKey_eq (k : Bytes) : hiddenKey k = (decide (k = "layer".toUTF8.toList) || decide (("__".toUTF8.toList).isPrefixOf k)) := by
  have h1 : "layer".toUTF8.toList = layerKey := by decide +kernel
  have h2 : "__".toUTF8.toList = [95, 95] := by decide +kernel
  rw [h1, h2, hiddenKey]
  congr 1
  match k with
  | [] => rfl
  | [a] => simp
  | a :: b :: r =>
    rw [show ([95, 95] : Bytes).isPrefixOf (a :: b :: r) = (95 == a && (95 == b && true)) from rfl,
      show List.take 2 (a :: b :: r) = [a, b] from rfl]
    by_cases ha : a = 95
    · by_cases hb : b = 95
      · simp [ha, hb]
      · have : ¬ (95 : UInt8) = b := fun h => hb h.symm
        simp [hb, this]
    · have : ¬ (95 : UInt8) = a := fun h => ha h.symm
      simp [ha, this]

theorem exported_eq (ms : List Meta) : exported ms = ms.filter (fun m => !hiddenKey m.key) := by
  simp only [exported, hiddenKey_eq]

def Resolves (K V : List Bytes) : List Nat → List Meta → Prop
  | [], [] => True
  | k :: v :: ts, m :: ms => K[k]? = some m.key ∧ V[v]? = some m.value ∧ Resolves K V ts ms
  | _, _ => False

theorem getElem?_prefix {α : Type} {l l' : List α} (h : l <+: l') {i : Nat} {a : α} (hi : l[i]? = some a) : l'[i]? = some a := by
  obtain ⟨t, rfl⟩ := h
  rw [List.getElem?_append_left]
  · exact hi
  · by_contra hx
    rw [List.getElem?_eq_none (by omega)] at hi
    cases hi

theorem Resolves.mono {K V K' V' : List Bytes} (hk : K <+: K') (hv : V <+: V') : ∀ {ts : List Nat} {ms : List Meta}, Resolves K V ts ms → Resolves K' V' ts ms
  | [], [], _ => trivial
  | _ :: _ :: _, _ :: _, ⟨h1, h2, h3⟩ => ⟨getElem?_prefix hk h1, getElem?_prefix hv h2, h3.mono hk hv⟩
  | [], _ :: _, h => h.elim
  | [_], [], h => h.elim
  | [_], _ :: _, h => h.elim
  | _ :: _ :: _, [], h => h.elim

theorem Resolves.lt {K V : List Bytes} : ∀ {ts : List Nat} {ms : List Meta}, Resolves K V ts ms → ∀ t ∈ ts, t < K.length ∨ t < V.length
  | [], [], _ => by simp
  | k :: v :: ts, _ :: _, ⟨h1, h2, h3⟩ => by
    intro t ht
    rcases List.mem_cons.1 ht with rfl | ht
    · left; by_contra hx; rw [List.getElem?_eq_none (by omega)] at h1; cases h1
    rcases List.mem_cons.1 ht with rfl | ht
    · right; by_contra hx; rw [List.getElem?_eq_none (by omega)] at h2; cases h2
    · exact h3.lt t ht
  | [], _ :: _, h => h.elim
  | [_], [], h => h.elim
  | [_], _ :: _, h => h.elim
  | _ :: _ :: _, [], h => h.elim

theorem writeMetadata_spec (ms : List Meta) (K V : List Bytes) (hK : K.Nodup) (hV : V.Nodup) :
    ∃ K' V' t, writeMetadata K.zipIdx V.zipIdx ms = (K'.zipIdx, V'.zipIdx, t) ∧ K'.Nodup ∧ V'.Nodup ∧ K <+: K' ∧ V <+: V' ∧
      Resolves K' V' t (exported ms) ∧ (∀ k, k ∈ K' ↔ k ∈ K ∨ ∃ m ∈ exported ms, m.key = k) ∧ (∀ v, v ∈ V' ↔ v ∈ V ∨ ∃ m ∈ exported ms, m.value = v) := by
  rw [exported_eq]
  induction ms generalizing K V with
  | nil => exact ⟨K, V, [], rfl, hK, hV, List.prefix_refl _, List.prefix_refl _, trivial, by simp, by simp⟩
  | cons m ms ih =>
    by_cases hh : hiddenKey m.key = true
    · obtain ⟨K', V', t, e, r⟩ := ih K V hK hV
      refine ⟨K', V', t, by rw [writeMetadata, if_pos hh, e], ?_⟩
      rw [List.filter_cons, if_neg (by simp [hh])]
      exact r
    · obtain ⟨K1, k, e1, n1, p1, g1, m1⟩ := getOrCreateIndex_spec K hK m.key
      obtain ⟨V1, v, e2, n2, p2, g2, m2⟩ := getOrCreateIndex_spec V hV m.value
      obtain ⟨K', V', t, e, nk, nv, pk, pv, r, mk, mv⟩ := ih K1 V1 n1 n2
      refine ⟨K', V', k :: v :: t, ?_, nk, nv, p1.trans pk, p2.trans pv, ?_, ?_, ?_⟩
      · simp only [writeMetadata, hh, e1, e2, e]; rfl
      · rw [List.filter_cons, if_pos (by simpa using hh)]
        exact ⟨getElem?_prefix pk g1, getElem?_prefix pv g2, r⟩
      · intro x
        rw [mk, m1, List.filter_cons, if_pos (by simpa using hh)]
        simp only [List.mem_cons, exists_eq_or_imp]
        tauto
      · intro x
        rw [mv, m2, List.filter_cons, if_pos (by simpa using hh)]
        simp only [List.mem_cons, exists_eq_or_imp]
        tauto

/-- message `m` was written for the drawn feature `w` -/
def Good (o : XY) (K V : List Bytes) (w : Feature) (m : List PbfField) : Prop :=
  ∃ gfs t, encodeGeometryFields o w.geometry = .ok gfs ∧ m = gfs ++ .varint 1 w.id :: packedField 2 (t.map (· % 2 ^ 32)) ∧
    Resolves K V t (exported w.metas)

def layerHeader (name : Bytes) : List PbfField := [.varint 15 2, .bytes 1 name, .varint 5 4096]

/-- the drawn features `ws` were written to the builder -/
structure Wrote (o : XY) (name : Bytes) (b : LayerBuilder) (ws : List Feature) (K V : List Bytes) (msgs : List (List PbfField)) : Prop where
  keys : b.keys = K.zipIdx
  values : b.values = V.zipIdx
  nodupK : K.Nodup
  nodupV : V.Nodup
  out : b.out = layerHeader name ++ msgs.map (fun m => .bytes 2 (encMessage m))
  good : List.Forall₂ (Good o K V) ws msgs
  has : b.hasGeometry = !ws.isEmpty
  memK : ∀ k, k ∈ K ↔ ∃ w ∈ ws, ∃ m ∈ exported w.metas, m.key = k
  memV : ∀ v, v ∈ V ↔ ∃ w ∈ ws, ∃ m ∈ exported w.metas, m.value = v

def WroteL (o : XY) (name : Bytes) (b : LayerBuilder) (ws : List Feature) : Prop := ∃ K V msgs, Wrote o name b ws K V msgs

theorem wrote_init (o : XY) (name : Bytes) : WroteL o name (LayerBuilder.init name) [] :=
  ⟨[], [], [], rfl, rfl, List.nodup_nil, List.nodup_nil, rfl, .nil, rfl, by simp, by simp⟩

/-- what is appended: nothing for a null geometry -/
def drawnOf (w : Feature) : List Feature := if w.geometry = .null then [] else [w]

theorem writeFeature_spec {o : XY} {name : Bytes} {b : LayerBuilder} {ws : List Feature} (h : WroteL o name b ws) (w : Feature)
    (he : ∃ fs, encodeGeometryFields o w.geometry = .ok fs) :
    ∃ b', writeFeature o b w = .ok b' ∧ WroteL o name b' (ws ++ drawnOf w) ∧ b'.lineBuf = b.lineBuf ∧ b'.polyBuf = b.polyBuf ∧
      b'.nodeIds = b.nodeIds ∧ b'.lineIds = b.lineIds ∧ b'.polyIds = b.polyIds := by
  by_cases hn : w.geometry = .null
  · refine ⟨b, by simp [writeFeature, hn], by simpa [drawnOf, hn] using h, rfl, rfl, rfl, rfl, rfl⟩
  · obtain ⟨K, V, msgs, h⟩ := h
    obtain ⟨fs, he⟩ := he
    obtain ⟨K', V', t, e, nk, nv, pk, pv, r, mk, mv⟩ := writeMetadata_spec w.metas K V h.nodupK h.nodupV
    refine ⟨{ b with hasGeometry := true, keys := K'.zipIdx, values := V'.zipIdx,
                     out := b.out ++ [.bytes 2 (encMessage (fs ++ .varint 1 w.id :: packedField 2 (t.map (· % 2 ^ 32))))] },
      ?_, ?_, rfl, rfl, rfl, rfl, rfl⟩
    · unfold writeFeature
      split
      · exact absurd (by assumption) hn
      · rw [he, Res.ok_bind, h.keys, h.values, e]; rfl
    · refine ⟨K', V', msgs ++ [fs ++ .varint 1 w.id :: packedField 2 (t.map (· % 2 ^ 32))], rfl, rfl, nk, nv, ?_, ?_, ?_, ?_, ?_⟩
      · simp [h.out]
      · rw [drawnOf, if_neg hn]
        refine List.rel_append ?_ (.cons ⟨fs, t, he, rfl, r⟩ .nil)
        exact h.good.imp fun w m ⟨gfs, t, g1, g2, g3⟩ => ⟨gfs, t, g1, g2, g3.mono pk pv⟩
      · simp [drawnOf, hn]
      · intro k
        rw [mk, h.memK, drawnOf, if_neg hn]
        constructor
        · rintro (⟨w', hw', hm⟩ | hm)
          · exact ⟨w', by simp [hw'], hm⟩
          · exact ⟨w, by simp, hm⟩
        · rintro ⟨w', hw', hm⟩
          rcases List.mem_append.1 hw' with hw' | hw'
          · exact .inl ⟨w', hw', hm⟩
          · rw [List.mem_singleton] at hw'; subst hw'; exact .inr hm
      · intro k
        rw [mv, h.memV, drawnOf, if_neg hn]
        constructor
        · rintro (⟨w', hw', hm⟩ | hm)
          · exact ⟨w', by simp [hw'], hm⟩
          · exact ⟨w, by simp, hm⟩
        · rintro ⟨w', hw', hm⟩
          rcases List.mem_append.1 hw' with hw' | hw'
          · exact .inl ⟨w', hw', hm⟩
          · rw [List.mem_singleton] at hw'; subst hw'; exact .inr hm

/-! ### reading a finished layer -/

theorem value_meaning {v : Bytes} {t : Typed} (h : valueMeaning v = some t) :
    ∃ msg, mvtValue v = .ok msg ∧ (msg.length < 2 ^ 32 → clientValue msg = some t) := by
  cases v with
  | nil => cases h
  | cons a r =>
    have main : ∀ f : PbfField, mvtValueFields (a :: r) = .ok [f] → ((encMessage [f]).length < 2 ^ 32 → f.Ok) → clientField f = some t →
        ∃ msg, mvtValue (a :: r) = .ok msg ∧ (msg.length < 2 ^ 32 → clientValue msg = some t) := by
      intro f h1 h2 h3
      refine ⟨encMessage [f], by simp [mvtValue, h1], fun hl => ?_⟩
      rw [clientValue, decMessage_enc [f] (by simpa using h2 hl)]
      exact h3
    simp only [valueMeaning] at h
    split at h
    · rename_i ha; subst ha; injection h with h; subst h
      exact main (.varint 7 0) rfl (fun _ => ⟨by decide, by decide⟩) rfl
    split at h
    · rename_i ha; subst ha; injection h with h; subst h
      exact main (.varint 7 1) rfl (fun _ => ⟨by decide, by decide⟩) rfl
    split at h
    · rename_i ha; subst ha; injection h with h; subst h
      refine main (.bytes 1 r) rfl (fun hl => ⟨by decide, ?_⟩) rfl
      have := bytes_len_le (fs := [PbfField.bytes 1 r]) (t := 1) (d := r) (by simp)
      omega
    split at h
    · rename_i ha; subst ha
      split at h
      · rename_i hr
        injection h with h; subst h
        have ht : r.take 8 = r := List.take_of_length_le (by omega)
        refine main (.fixed64 3 (leNat r)) ?_ (fun _ => ⟨by decide, ?_⟩) rfl
        · simp only [mvtValueFields]
          rw [if_neg (by decide), if_neg (by decide), if_neg (by decide), if_pos trivial, if_neg (by simp [hr]), ht]
        · have := leNat_lt r; rw [hr] at this; exact this
      · cases h
    split at h
    · rename_i ha; subst ha
      split at h
      · rename_i hr
        injection h with h; subst h
        have ht : r.take 8 = r := List.take_of_length_le (by omega)
        have hb := leNat_lt r
        rw [hr] at hb
        have hrange : -(2 : Int) ^ 63 ≤ bitsI64 (leNat r) ∧ bitsI64 (leNat r) < (2 : Int) ^ 63 := by
          unfold bitsI64
          norm_num at hb ⊢
          split <;> omega
        refine main (.varint 6 (zigzag (bitsI64 (leNat r)))) ?_ (fun _ => ⟨by decide, zigzag_lt hrange.1 hrange.2⟩) ?_
        · simp only [mvtValueFields]
          rw [if_neg (by decide), if_neg (by decide), if_neg (by decide), if_neg (by decide), if_pos trivial, if_neg (by simp [hr]), ht]
        · simp only [clientField, unzigzag_zigzag]; rfl
      · cases h
    · cases h

theorem cacheTable_zipIdx (K : List Bytes) : cacheTable K.zipIdx = .ok K := by
  have := fillSorted_spec K []
  simp only [List.nil_append, List.length_nil] at this
  rw [cacheTable, List.length_zipIdx, this]

theorem collect_map {α β : Type} (f : α → Option β) (g : α → β) (l : List α) (h : ∀ a ∈ l, f a = some (g a)) : collect (l.map f) = some (l.map g) := by
  induction l with
  | nil => rfl
  | cons a l ih =>
    rw [List.map_cons, h a (by simp), collect, ih (fun b hb => h b (by simp [hb]))]
    rfl

theorem valueFields_spec (V : List Bytes) (h : ∀ v ∈ V, ∃ t, valueMeaning v = some t) :
    ∃ ms : List Bytes, valueFields V = .ok (ms.map (.bytes 4)) ∧
      ((∀ m ∈ ms, m.length < 2 ^ 32) → ∃ ts, collect (ms.map clientValue) = some ts ∧ ts.length = V.length ∧
        ∀ (i : Nat) v, V[i]? = some v → ∃ t, valueMeaning v = some t ∧ ts[i]? = some t) := by
  induction V with
  | nil => exact ⟨[], rfl, fun _ => ⟨[], rfl, rfl, by simp⟩⟩
  | cons v V ih =>
    obtain ⟨ms, e, hm⟩ := ih (fun x hx => h x (by simp [hx]))
    obtain ⟨t, ht⟩ := h v (by simp)
    obtain ⟨msg, e1, e2⟩ := value_meaning ht
    refine ⟨msg :: ms, by simp [valueFields, e1, e], fun hl => ?_⟩
    obtain ⟨ts, c1, c2, c3⟩ := hm (fun m hm => hl m (by simp [hm]))
    refine ⟨t :: ts, by simp [collect, e2 (hl msg (by simp)), c1], by simp [c2], fun i x hx => ?_⟩
    cases i with
    | zero => simp at hx; subst hx; exact ⟨t, ht, rfl⟩
    | succ i => simp at hx ⊢; exact c3 i x hx

/-- what a client should see of a drawn feature -/
def Spec.view (o : XY) (w : Feature) : ClientFeature :=
  ⟨w.id, typeOf w.geometry, partsOf o w.geometry,
   (exported w.metas).filterMap (fun m => (valueMeaning m.value).map (fun t => (m.key, t)))⟩

/-- a drawn feature that can be written -/
structure Writable (o : XY) (w : Feature) : Prop where
  notNull : w.geometry ≠ .null
  wellFormed : WellFormed w.geometry
  near : NearTile o w.geometry
  id : w.id < 2 ^ 64
  values : ∀ m ∈ exported w.metas, ∃ t, valueMeaning m.value = some t

theorem resolve_spec {K V : List Bytes} {ts : List Typed}
    (hts : ∀ (i : Nat) v, V[i]? = some v → ∃ t, valueMeaning v = some t ∧ ts[i]? = some t) :
    ∀ {t : List Nat} {ms : List Meta}, Resolves K V t ms →
      resolve K ts t = some (ms.filterMap (fun m => (valueMeaning m.value).map (fun t => (m.key, t))))
  | [], [], _ => rfl
  | k :: v :: t, m :: ms, ⟨h1, h2, h3⟩ => by
    obtain ⟨x, hx, hx'⟩ := hts v m.value h2
    rw [resolve, h1, hx', resolve_spec hts h3]
    simp [hx]
  | [], _ :: _, h => h.elim
  | [_], [], h => h.elim
  | [_], _ :: _, h => h.elim
  | _ :: _ :: _, [], h => h.elim

theorem geometryFields_shape {o : XY} {g : Geometry} {gfs : List PbfField} (h : encodeGeometryFields o g = .ok gfs) :
    ∀ f ∈ gfs, (∃ t, t < 4 ∧ f = .varint 3 t) ∨ ∃ d, f = .bytes 4 d := by
  have hp : ∀ els, ∀ f ∈ packedField 4 els, ∃ d, f = .bytes 4 d := by
    intro els f hf
    unfold packedField at hf
    split at hf
    · simp at hf
    · rw [List.mem_singleton] at hf; exact ⟨_, hf⟩
  intro f hf
  cases g with
  | null => cases h; simp at hf
  | point p =>
    cases h
    rcases List.mem_cons.1 hf with rfl | hf
    · exact .inl ⟨1, by decide, rfl⟩
    · exact .inr (hp _ f hf)
  | polyline l =>
    simp only [encodeGeometryFields, Res.bind_eq_ok] at h
    obtain ⟨⟨els, _⟩, _, h⟩ := h
    cases h
    rcases List.mem_cons.1 hf with rfl | hf
    · exact .inl ⟨2, by decide, rfl⟩
    · exact .inr (hp _ f hf)
  | polygon l =>
    simp only [encodeGeometryFields, Res.bind_eq_ok] at h
    obtain ⟨_, _, ⟨els, _⟩, _, h⟩ := h
    cases h
    rcases List.mem_cons.1 hf with rfl | hf
    · exact .inl ⟨3, by decide, rfl⟩
    · exact .inr (hp _ f hf)

theorem filterMap_none {α β : Type} {f : α → Option β} {l : List α} (h : ∀ a ∈ l, f a = none) : l.filterMap f = [] :=
  List.filterMap_eq_nil_iff.2 h

theorem clientFeature_spec {o : XY} {K V : List Bytes} {ts : List Typed} {w : Feature} {m : List PbfField}
    (hg : Good o K V w m) (hw : Writable o w) (hlen : (encMessage m).length < 2 ^ 32) (hK : K.length < 2 ^ 32) (hV : V.length < 2 ^ 32)
    (hts : ∀ (i : Nat) v, V[i]? = some v → ∃ t, valueMeaning v = some t ∧ ts[i]? = some t) :
    clientFeature K ts (encMessage m) = some (view o w) := by
  obtain ⟨gfs, t, he, rfl, hr⟩ := hg
  have htl : ∀ x ∈ t, x < 2 ^ 32 := fun x hx => by have := hr.lt x hx; omega
  have htm : t.map (· % 2 ^ 32) = t := by
    refine (List.map_congr_left fun x hx => ?_).trans (List.map_id _)
    exact Nat.mod_eq_of_lt (htl x hx)
  rw [htm] at hlen ⊢
  have hshape := geometryFields_shape he
  have hpk : ∀ f ∈ packedField 2 t, f = .bytes 2 (t.flatMap encVarint) := by
    intro f hf
    unfold packedField at hf
    split at hf
    · simp at hf
    · rwa [List.mem_singleton] at hf
  have hok : ∀ f ∈ gfs ++ .varint 1 w.id :: packedField 2 t, f.Ok := by
    intro f hf
    have hb : ∀ tg d, f = .bytes tg d → d.length < 2 ^ 32 := by
      rintro tg d rfl
      have := bytes_len_le hf; omega
    rcases List.mem_append.1 hf with h | h
    · rcases hshape f h with ⟨x, hx, rfl⟩ | ⟨d, rfl⟩
      · exact ⟨by decide, by omega⟩
      · exact ⟨by decide, hb _ _ rfl⟩
    · rcases List.mem_cons.1 h with rfl | h
      · exact ⟨by decide, hw.id⟩
      · have := hpk f h; subst this
        exact ⟨by decide, hb _ _ rfl⟩
  rw [clientFeature, decMessage_enc _ hok]
  dsimp only
  obtain ⟨gfs', he', hcg⟩ := C27_decodes o w.geometry hw.wellFormed hw.near hw.notNull (.varint 1 w.id :: packedField 2 t) (by
    intro f hf v d
    rcases List.mem_cons.1 hf with rfl | hf
    · exact ⟨by simp, by simp⟩
    · rw [hpk f hf]; exact ⟨by simp, by simp⟩)
  rw [he] at he'
  injection he' with he'
  subst he'
  rw [hcg]
  have hid : (gfs ++ .varint 1 w.id :: packedField 2 t).filterMap (varintOf 1) = [w.id] := by
    rw [List.filterMap_append, List.filterMap_cons, filterMap_none (l := gfs), filterMap_none (l := packedField 2 t)]
    · simp [varintOf]
    · intro f hf; rw [hpk f hf]; rfl
    · intro f hf
      rcases hshape f hf with ⟨x, hx, rfl⟩ | ⟨d, rfl⟩ <;> simp [varintOf]
  have htag : tagIndices (gfs ++ .varint 1 w.id :: packedField 2 t) = some t := by
    have hfm : (gfs ++ .varint 1 w.id :: packedField 2 t).filterMap (bytesOf 2) = if t = [] then [] else [t.flatMap encVarint] := by
      rw [List.filterMap_append, List.filterMap_cons, filterMap_none (l := gfs)]
      · simp only [List.nil_append, bytesOf, packedField]
        split <;> simp [bytesOf]
      · intro f hf
        rcases hshape f hf with ⟨x, hx, rfl⟩ | ⟨d, rfl⟩ <;> simp [bytesOf]
    rw [tagIndices, hfm]
    by_cases h0 : t = []
    · simp [h0]
    · rw [if_neg h0]
      dsimp only
      rw [decPacked_enc t (fun x hx => by have := htl x hx; omega)]
  rw [clientId, hid, htag]
  simp only [Option.bind_some]
  rw [resolve_spec hts hr]
  rfl

theorem length_le_encMessage (fs : List PbfField) : fs.length ≤ (encMessage fs).length := by
  induction fs with
  | nil => simp
  | cons f fs ih =>
    have := f.enc_length_pos
    rw [show encMessage (f :: fs) = f.enc ++ encMessage fs from rfl, List.length_append, List.length_cons]
    omega

theorem collect_forall₂ {o : XY} {K V : List Bytes} (ws : List Feature) (msgs : List (List PbfField)) (hg : List.Forall₂ (Good o K V) ws msgs)
    (cf : Bytes → Option ClientFeature) (h : ∀ w m, w ∈ ws → m ∈ msgs → Good o K V w m → cf (encMessage m) = some (view o w)) :
    collect ((msgs.map encMessage).map cf) = some (ws.map (view o)) := by
  induction hg with
  | nil => rfl
  | cons a b ih =>
    rename_i w m ws' msgs'
    rw [List.map_cons, List.map_cons, h w m (by simp) (by simp) a, collect,
      ih (fun w' m' hw' hm' hgood => h w' m' (by simp [hw']) (by simp [hm']) hgood)]
    rfl

theorem fm_varint {α : Type} (t t' : Nat) (g : α → Bytes) (l : List α) : (l.map (fun a => PbfField.bytes t' (g a))).filterMap (varintOf t) = [] :=
  filterMap_none (by intro a ha; obtain ⟨x, _, rfl⟩ := List.mem_map.1 ha; rfl)

theorem fm_bytes_ne {α : Type} {t t' : Nat} (h : t' ≠ t) (g : α → Bytes) (l : List α) :
    (l.map (fun a => PbfField.bytes t' (g a))).filterMap (bytesOf t) = [] :=
  filterMap_none (by intro a ha; obtain ⟨x, _, rfl⟩ := List.mem_map.1 ha; simp [bytesOf, h])

theorem fm_bytes_eq {α : Type} (t : Nat) (g : α → Bytes) (l : List α) :
    (l.map (fun a => PbfField.bytes t (g a))).filterMap (bytesOf t) = l.map g := by
  induction l with
  | nil => rfl
  | cons a l ih => rw [List.map_cons, List.filterMap_cons]; simp only [bytesOf, if_pos]; rw [ih]; rfl

/-- the tables of a layer message hold every exported key / value of the features `ws` once, and nothing else -/
def Spec.TablesOk (msg : Bytes) (ws : List Feature) : Prop :=
  ∃ fs, decMessage msg = .ok fs ∧
    (fs.filterMap (bytesOf 3)).Nodup ∧ (∀ k, k ∈ fs.filterMap (bytesOf 3) ↔ ∃ w ∈ ws, ∃ m ∈ exported w.metas, m.key = k) ∧
    ∃ V : List Bytes, V.Nodup ∧ (∀ v, v ∈ V ↔ ∃ w ∈ ws, ∃ m ∈ exported w.metas, m.value = v) ∧
      (fs.filterMap (bytesOf 4)).map clientValue = V.map valueMeaning

theorem finish_gen {name : Bytes} {b : LayerBuilder} {K V : List Bytes} {msgs : List (List PbfField)} {cs : List ClientFeature}
    (hk : b.keys = K.zipIdx) (hv : b.values = V.zipIdx) (hout : b.out = layerHeader name ++ msgs.map (fun m => .bytes 2 (encMessage m)))
    (hV : ∀ v ∈ V, ∃ t, valueMeaning v = some t)
    (hcf : ∀ ts : List Typed, (∀ (i : Nat) v, V[i]? = some v → ∃ t, valueMeaning v = some t ∧ ts[i]? = some t) → K.length < 2 ^ 32 → V.length < 2 ^ 32 →
      (∀ m ∈ msgs, (encMessage m).length < 2 ^ 32) → collect ((msgs.map encMessage).map (clientFeature K ts)) = some cs) :
    ∃ bytes, b.finish = .ok bytes ∧ (bytes.length < 2 ^ 32 → clientLayer bytes = some ⟨2, name, 4096, cs⟩ ∧
      ∃ fs, decMessage bytes = .ok fs ∧ fs.filterMap (bytesOf 3) = K ∧ (fs.filterMap (bytesOf 4)).map clientValue = V.map valueMeaning) := by
  obtain ⟨vms, e, hvm⟩ := valueFields_spec V hV
  refine ⟨encMessage (b.out ++ K.map (.bytes 3) ++ vms.map (.bytes 4)), ?_, fun hl => ?_⟩
  · rw [LayerBuilder.finish, hk, hv, cacheTable_zipIdx, cacheTable_zipIdx, Res.ok_bind, Res.ok_bind, e]
    rfl
  · rw [hout] at hl ⊢
    generalize hfs : layerHeader name ++ msgs.map (fun m => PbfField.bytes 2 (encMessage m)) ++ K.map (.bytes 3) ++ vms.map (.bytes 4) = fs at hl ⊢
    have hok : ∀ f ∈ fs, f.Ok := by
      intro f hf
      have hb : ∀ tg d, f = .bytes tg d → d.length < 2 ^ 32 := by
        rintro tg d rfl
        have := bytes_len_le hf; omega
      rw [← hfs] at hf
      simp only [List.mem_append, List.mem_map, layerHeader, List.mem_cons, List.not_mem_nil, or_false] at hf
      rcases hf with ((((rfl | rfl | rfl) | ⟨m, _, rfl⟩) | ⟨k, _, rfl⟩) | ⟨v, _, rfl⟩)
      · exact ⟨by decide, by decide⟩
      · exact ⟨by decide, hb _ _ rfl⟩
      · exact ⟨by decide, by decide⟩
      · exact ⟨by decide, hb _ _ rfl⟩
      · exact ⟨by decide, hb _ _ rfl⟩
      · exact ⟨by decide, hb _ _ rfl⟩
    have hcount := length_le_encMessage fs
    have hKl : K.length ≤ fs.length := by rw [← hfs]; simp; omega
    have hVl' : vms.length ≤ fs.length := by rw [← hfs]; simp; omega
    have hvl : ∀ m ∈ vms, m.length < 2 ^ 32 := by
      intro m hm
      have := bytes_len_le (fs := fs) (t := 4) (d := m) (by rw [← hfs]; simp [hm])
      omega
    obtain ⟨ts, c1, c2, c3⟩ := hvm hvl
    have hVl : V.length ≤ vms.length := by
      have : ∀ (vs : List Bytes) ts, collect (vs.map clientValue) = some ts → ts.length = vs.length := by
        intro vs
        induction vs with
        | nil => intro ts h; cases h; rfl
        | cons a vs ih =>
          intro ts h
          rw [List.map_cons] at h
          cases ha : clientValue a with
          | none => rw [ha] at h; cases h
          | some t =>
            rw [ha, collect] at h
            cases hc : collect (vs.map clientValue) with
            | none => rw [hc] at h; cases h
            | some ts' => rw [hc] at h; cases h; simp [ih ts' hc]
      rw [← c2, this _ _ c1]
    have e3 : K.map (PbfField.bytes 3) = K.map (fun k => PbfField.bytes 3 (id k)) := rfl
    have e4 : vms.map (PbfField.bytes 4) = vms.map (fun k => PbfField.bytes 4 (id k)) := rfl
    rw [e3, e4] at hfs
    have f15 : fs.filterMap (varintOf 15) = [2] := by
      rw [← hfs, List.filterMap_append, List.filterMap_append, List.filterMap_append, fm_varint, fm_varint, fm_varint]; rfl
    have f5 : fs.filterMap (varintOf 5) = [4096] := by
      rw [← hfs, List.filterMap_append, List.filterMap_append, List.filterMap_append, fm_varint, fm_varint, fm_varint]; rfl
    have f1 : fs.filterMap (bytesOf 1) = [name] := by
      rw [← hfs, List.filterMap_append, List.filterMap_append, List.filterMap_append, fm_bytes_ne (by decide), fm_bytes_ne (by decide), fm_bytes_ne (by decide)]; rfl
    have f2 : fs.filterMap (bytesOf 2) = msgs.map encMessage := by
      rw [← hfs, List.filterMap_append, List.filterMap_append, List.filterMap_append, fm_bytes_eq, fm_bytes_ne (by decide), fm_bytes_ne (by decide),
        List.append_nil, List.append_nil]; rfl
    have f3 : fs.filterMap (bytesOf 3) = K := by
      rw [← hfs, List.filterMap_append, List.filterMap_append, List.filterMap_append, fm_bytes_ne (by decide), fm_bytes_eq, fm_bytes_ne (by decide),
        List.append_nil, List.map_id]; rfl
    have f4 : fs.filterMap (bytesOf 4) = vms := by
      rw [← hfs, List.filterMap_append, List.filterMap_append, List.filterMap_append, fm_bytes_ne (by decide), fm_bytes_ne (by decide), fm_bytes_eq,
        List.map_id]; rfl
    refine ⟨?_, fs, decMessage_enc fs hok, f3, ?_⟩
    rotate_left
    · rw [f4]
      have hcol : ∀ (vs : List Bytes) ts, collect (vs.map clientValue) = some ts → vs.map clientValue = ts.map some := by
        intro vs
        induction vs with
        | nil => intro ts h; cases h; rfl
        | cons a vs ih =>
          intro ts h
          rw [List.map_cons] at h
          cases ha : clientValue a with
          | none => rw [ha] at h; cases h
          | some t =>
            rw [ha, collect] at h
            cases hc : collect (vs.map clientValue) with
            | none => rw [hc] at h; cases h
            | some ts' => rw [hc] at h; cases h; simp [ih ts' hc, ha]
      rw [hcol vms ts c1]
      apply List.ext_getElem?
      intro i
      rw [List.getElem?_map, List.getElem?_map]
      by_cases hi : i < V.length
      · obtain ⟨t, h1, h2⟩ := c3 i V[i] (List.getElem?_eq_getElem hi)
        rw [h2, List.getElem?_eq_getElem hi, Option.map_some, Option.map_some, h1]
      · rw [List.getElem?_eq_none (by omega), List.getElem?_eq_none (by omega)]; rfl
    rw [clientLayer, decMessage_enc fs hok]
    dsimp only
    rw [f15, f1, f5, f2, f3, f4, c1]
    dsimp only [Option.bind_some]
    rw [hcf ts c3 (by omega) (by omega) (by
      intro m hm
      have := bytes_len_le (fs := fs) (t := 2) (d := encMessage m) (by
        rw [← hfs]; simp only [List.mem_append, List.mem_map]; left; left; right; exact ⟨m, hm, rfl⟩)
      omega)]
    rfl

theorem finish_spec {o : XY} {name : Bytes} {b : LayerBuilder} {ws : List Feature} (h : WroteL o name b ws) (hw : ∀ w ∈ ws, Writable o w) :
    ∃ bytes, b.finish = .ok bytes ∧ (bytes.length < 2 ^ 32 → clientLayer bytes = some ⟨2, name, 4096, ws.map (view o)⟩ ∧ TablesOk bytes ws) := by
  obtain ⟨K, V, msgs, h⟩ := h
  have hV : ∀ v ∈ V, ∃ t, valueMeaning v = some t := by
    intro v hv
    obtain ⟨w, hw', m, hm, rfl⟩ := (h.memV v).1 hv
    exact (hw w hw').values m hm
  obtain ⟨bytes, e, hb⟩ := finish_gen h.keys h.values h.out hV (cs := ws.map (view o)) (by
    intro ts c3 hK hV' hm
    exact collect_forall₂ ws msgs h.good _ (fun w m hw' hm' hgood => clientFeature_spec hgood (hw w hw') (hm m hm') hK hV' c3))
  refine ⟨bytes, e, fun hl => ?_⟩
  obtain ⟨h1, fs, h2, h3, h4⟩ := hb hl
  exact ⟨h1, fs, h2, by rw [h3]; exact h.nodupK, by rw [h3]; exact h.memK, V, h.nodupV, h.memV, h4⟩

end Tiles
