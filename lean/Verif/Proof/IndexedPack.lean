import Verif.Proof.BestTile
import Verif.Proof.FeaturePack
import Verif.Proof.At
import Verif.Props.C10
import Mathlib.Data.List.Forall2
namespace Tiles
open Spec

/-- the bytes of a span -/
def spanBytes (ss : List Bytes) : Bytes := featureBytes ss ++ spanEnd

theorem readSpan_enc (ss : List Bytes) (rest : Bytes) (h : ∀ s ∈ ss, 32 ≤ s.length ∧ s.length < 2 ^ 64) :
    readSpan (spanBytes ss ++ rest) = .ok (ss, rest) := by
  induction ss with
  | nil =>
    have h1 := decVarint_enc 0 rest (by decide)
    rw [readSpan]
    show (match h : decVarint (encVarint 0 ++ rest) with
      | .ok (0, rest) => _ | .ok (n + 1, rest) => _ | .throw_ => _ | .ub => _) = _
    split <;> rename_i heq <;> rw [h1] at heq <;> simp at heq
    obtain rfl := heq
    rfl
  | cons s ss ih =>
    have hs := h s (by simp)
    obtain ⟨m, hm⟩ : ∃ m, s.length = m + 1 := ⟨s.length - 1, by omega⟩
    have e : spanBytes (s :: ss) ++ rest = encVarint s.length ++ (s ++ (spanBytes ss ++ rest)) := by
      simp [spanBytes, featureBytes]
    have h1 := decVarint_enc s.length (s ++ (spanBytes ss ++ rest)) hs.2
    rw [e, readSpan]
    split <;> rename_i heq <;> rw [h1] at heq <;> simp [hm] at heq
    obtain ⟨rfl, rfl⟩ := heq
    rw [if_pos (by rw [List.length_append]; omega), ← hm, List.drop_left, List.take_left, ih (fun g hg => h g (by simp [hg]))]
    rfl

theorem readSpans_enc (sss : List (List Bytes)) (rest : Bytes) (h : ∀ ss ∈ sss, ∀ s ∈ ss, 32 ≤ s.length ∧ s.length < 2 ^ 64) :
    readSpans sss.length (sss.flatMap spanBytes ++ rest) = .ok sss.flatten := by
  induction sss generalizing rest with
  | nil => rfl
  | cons ss sss ih =>
    rw [List.length_cons, readSpans, List.flatMap_cons, List.append_assoc, readSpan_enc ss _ (h ss (by simp)), Res.ok_bind]
    dsimp only
    rw [ih _ (fun s hs => h s (by simp [hs]))]
    rfl

theorem unpackLoop_append (fs : List Bytes) (n : Nat) (rest : Bytes) (h : ∀ f ∈ fs, 32 ≤ f.length ∧ f.length < 2 ^ 64)
    {gs : List Bytes} {r : Bytes} (hn : unpackLoop n rest = .ok (gs, r)) :
    unpackLoop (fs.length + n) (featureBytes fs ++ rest) = .ok (fs ++ gs, r) := by
  induction fs with
  | nil => simpa [featureBytes] using hn
  | cons f fs ih =>
    have hf := h f (by simp)
    rw [List.length_cons, show fs.length + 1 + n = (fs.length + n) + 1 by omega, unpackLoop]
    have e : featureBytes (f :: fs) ++ rest = encVarint f.length ++ (f ++ (featureBytes fs ++ rest)) := by
      simp [featureBytes]
    rw [e, nextSize_enc _ _ (by omega) hf.2, Res.ok_bind]
    simp only [List.length_append, Nat.le_add_right, if_true, List.drop_left, List.take_left]
    rw [ih (fun g hg => h g (by simp [hg]))]
    rfl

theorem unpackLoop_skip (n : Nat) (rest : Bytes) : unpackLoop (n + 1) (spanEnd ++ rest) = unpackLoop (n + 1) rest := by
  rw [unpackLoop, unpackLoop, spanEnd, nextSize_zero]

/-- the counting reader passes over the span terminators -/
theorem unpackLoop_spans (sss : List (List Bytes)) (rest : Bytes) (h : ∀ ss ∈ sss, ∀ s ∈ ss, 32 ≤ s.length ∧ s.length < 2 ^ 64) :
    ∃ r, unpackLoop sss.flatten.length (sss.flatMap spanBytes ++ rest) = .ok (sss.flatten, r) := by
  induction sss with
  | nil => exact ⟨_, rfl⟩
  | cons ss sss ih =>
    obtain ⟨r, hr⟩ := ih (fun s hs => h s (by simp [hs]))
    rw [List.flatten_cons, List.length_append, List.flatMap_cons, List.append_assoc, spanBytes, List.append_assoc]
    cases hn : sss.flatten.length with
    | zero =>
      rw [List.length_eq_zero_iff.1 hn]
      exact ⟨_, unpackLoop_append ss 0 _ (h ss (by simp)) rfl⟩
    | succ n =>
      rw [hn] at hr
      exact ⟨r, unpackLoop_append ss (n + 1) _ (h ss (by simp)) (by rw [unpackLoop_skip]; exact hr)⟩

/-! ### writing -/

/-- the value of a successful serialization -/
def serVal (ser : Feature → Res Bytes) (f : Feature) : Bytes := match ser f with | .ok s => s | _ => []

def SerOk (ser : Feature → Res Bytes) (f : Feature) : Prop := ser f = .ok (serVal ser f) ∧ 32 ≤ (serVal ser f).length

variable {ser : Feature → Res Bytes}

theorem serializeAll_ok {fs : List Feature} (h : ∀ f ∈ fs, ser f = .ok (serVal ser f)) :
    serializeAll ser fs = .ok (fs.map (serVal ser)) := by
  induction fs with
  | nil => rfl
  | cons f fs ih =>
    rw [serializeAll, h f (by simp), Res.ok_bind, ih (fun g hg => h g (by simp [hg]))]
    rfl

theorem serializeAll_inv {fs : List Feature} {ss : List Bytes} (h : serializeAll ser fs = .ok ss) :
    (∀ f ∈ fs, ser f = .ok (serVal ser f)) ∧ ss = fs.map (serVal ser) := by
  induction fs generalizing ss with
  | nil => injection h with h; simp [← h]
  | cons f fs ih =>
    rw [serializeAll, Res.bind_eq_ok] at h
    obtain ⟨s, hs, h⟩ := h
    rw [Res.bind_eq_ok] at h
    obtain ⟨t, ht, h⟩ := h
    injection h with h
    obtain ⟨h1, h2⟩ := ih ht
    have e : serVal ser f = s := by rw [serVal, hs]
    refine ⟨?_, by rw [List.map_cons, e, ← h2]; exact h.symm⟩
    intro g hg
    rcases List.mem_cons.1 hg with rfl | hg
    · rw [e, hs]
    · exact h1 g hg

/-- the bytes of the span of a group -/
def groupBytes (ser : Feature → Res Bytes) (g : List QFeature) : Bytes := spanBytes (g.map (fun q => serVal ser q.feature))

theorem spanOf_ok {g : List QFeature} (h : ∀ q ∈ g, SerOk ser q.feature) : spanOf ser g = .ok (groupBytes ser g) := by
  rw [spanOf, serializeAll_ok (by
    intro f hf; obtain ⟨q, hq, rfl⟩ := List.mem_map.1 hf; exact (h q hq).1), Res.ok_bind, appendFeatures,
    appendFeatureList_ok _ (by
      intro s hs; simp only [List.map_map, List.mem_map] at hs; obtain ⟨q, hq, rfl⟩ := hs; exact (h q hq).2)]
  simp [groupBytes, spanBytes, Function.comp_def]

theorem spanOf_inv {g : List QFeature} {b : Bytes} (h : spanOf ser g = .ok b) : ∀ q ∈ g, SerOk ser q.feature := by
  rw [spanOf, Res.bind_eq_ok] at h
  obtain ⟨ss, hs, h⟩ := h
  obtain ⟨h1, h2⟩ := serializeAll_inv hs
  intro q hq
  refine ⟨h1 _ (List.mem_map_of_mem hq), ?_⟩
  by_contra hc
  rw [appendFeatures, appendFeatureList_throw ss ⟨serVal ser q.feature, by
    rw [h2]; exact List.mem_map_of_mem (List.mem_map_of_mem hq), by omega⟩] at h
  simp at h

def headTile (g : List QFeature) : Tile := (g.head?.map (·.best)).getD default

/-- the index entries of groups laid out from address `o` on -/
def entries (ser : Feature → Res Bytes) : Nat → List (List QFeature) → List QInput
  | _, [] => []
  | o, g :: gs => ⟨headTile g, o % 2 ^ 32, 1⟩ :: entries ser (o + (groupBytes ser g).length) gs

theorem packGroups_ok {gs : List (List QFeature)} (buf : Bytes) (h : ∀ g ∈ gs, ∀ q ∈ g, SerOk ser q.feature) :
    packGroups ser buf gs = .ok (buf ++ gs.flatMap (groupBytes ser), entries ser buf.length gs) := by
  induction gs generalizing buf with
  | nil => simp [packGroups, entries]
  | cons g gs ih =>
    rw [packGroups, spanOf_ok (h g (by simp)), Res.ok_bind, ih _ (fun g hg => h g (by simp [hg])), Res.ok_bind]
    simp [entries, headTile]

theorem packGroups_inv {gs : List (List QFeature)} {buf : Bytes} {r} (h : packGroups ser buf gs = .ok r) :
    ∀ g ∈ gs, ∀ q ∈ g, SerOk ser q.feature := by
  induction gs generalizing buf r with
  | nil => simp
  | cons g gs ih =>
    rw [packGroups, Res.bind_eq_ok] at h
    obtain ⟨b, hb, h⟩ := h
    rw [Res.bind_eq_ok] at h
    obtain ⟨x, hx, _⟩ := h
    intro g' hg'
    rcases List.mem_cons.1 hg' with rfl | hg'
    · exact spanOf_inv hb
    · exact ih hx g' hg'

theorem entries_tiles (o : Nat) (gs : List (List QFeature)) : (entries ser o gs).map (·.tile) = gs.map headTile := by
  induction gs generalizing o with
  | nil => rfl
  | cons g gs ih => simp [entries, ih]

theorem entries_mem {o : Nat} {gs : List (List QFeature)} {e : QInput} (h : e ∈ entries ser o gs) :
    e.offset < 2 ^ 32 ∧ e.size = 1 ∧ ∃ g ∈ gs, e.tile = headTile g := by
  induction gs generalizing o with
  | nil => simp [entries] at h
  | cons g gs ih =>
    rcases List.mem_cons.1 h with rfl | h
    · exact ⟨Nat.mod_lt _ (by decide), rfl, g, by simp, rfl⟩
    · obtain ⟨a, b, g', c, d⟩ := ih h
      exact ⟨a, b, g', by simp [c], d⟩

theorem entries_pairwise {R : Tile → Tile → Prop} {o : Nat} {gs : List (List QFeature)}
    (h : gs.Pairwise (fun g g' => R (headTile g) (headTile g'))) : (entries ser o gs).Pairwise (fun a b => R a.tile b.tile) := by
  have := List.pairwise_map.2 h
  rw [← entries_tiles (ser := ser) o gs] at this
  exact List.pairwise_map.1 this

theorem owners_entries (o : Nat) (gs : List (List QFeature)) : owners (entries ser o gs) = gs.map headTile := by
  induction gs generalizing o with
  | nil => rfl
  | cons g gs ih => have := ih (o + (groupBytes ser g).length); simp only [owners] at this; simp [owners, entries, this]

/-- address of the j-th span -/
def spanAddr (ser : Feature → Res Bytes) (o : Nat) (gs : List (List QFeature)) (j : Nat) : Nat := o + ((gs.take j).flatMap (groupBytes ser)).length

theorem spanAddr_mono (o : Nat) (gs : List (List QFeature)) {i j : Nat} (h : i ≤ j) : spanAddr ser o gs i ≤ spanAddr ser o gs j := by
  have : gs.take j = gs.take i ++ (gs.take j).drop i := by
    have := (List.take_append_drop i (gs.take j)).symm
    rwa [List.take_take, Nat.min_eq_left h] at this
  simp only [spanAddr]
  rw [this, List.flatMap_append, List.length_append]
  omega

theorem laid_entries (o : Nat) (pre gs : List (List QFeature)) (hlen : spanAddr ser o (pre ++ gs) (pre ++ gs).length < 2 ^ 32) :
    Laid (spanAddr ser o (pre ++ gs)) pre.length (entries ser (spanAddr ser o (pre ++ gs) pre.length) gs) := by
  induction gs generalizing pre with
  | nil => trivial
  | cons g gs ih =>
    have e : pre ++ g :: gs = (pre ++ [g]) ++ gs := by simp
    have e2 : spanAddr ser o (pre ++ g :: gs) pre.length + (groupBytes ser g).length = spanAddr ser o (pre ++ g :: gs) (pre ++ [g]).length := by
      rw [spanAddr, spanAddr, List.take_left]
      have : (pre ++ g :: gs).take (pre ++ [g]).length = pre ++ [g] := by rw [e, List.take_left]
      rw [this, List.flatMap_append, List.length_append]
      simp; omega
    refine ⟨?_, ?_⟩
    · show _ % _ = _
      rw [Nat.mod_eq_of_lt]
      refine Nat.lt_of_le_of_lt (spanAddr_mono _ _ ?_) hlen
      simp
    · rw [e2]
      have := ih (pre ++ [g])
      rw [← e] at this
      have := this hlen
      simpa using this

/-- the contents of a group -/
def groupVals (ser : Feature → Res Bytes) (g : List QFeature) : List Bytes := g.map (fun q => serVal ser q.feature)

theorem range_get {α : Type} (gs : List (List α)) (a n : Nat) (h : a + n ≤ gs.length) :
    (List.range' a n).map (fun j => (gs[j]?).getD []) = (gs.drop a).take n := by
  apply List.ext_getElem
  · simp; omega
  · intro i h1 h2
    simp only [List.length_map, List.length_range'] at h1
    have : a + i < gs.length := by omega
    simp [List.getElem_range', this]

theorem filter_range_get {α : Type} (gs : List (List α)) (c : List α → Bool) :
    ((List.range gs.length).filter (fun j => c ((gs[j]?).getD []))).map (fun j => (gs[j]?).getD []) = gs.filter c := by
  have h := range_get gs 0 gs.length (by omega)
  rw [List.drop_zero, List.take_length, ← List.range_eq_range'] at h
  conv => rhs; rw [← h]
  rw [List.filter_map]
  rfl

theorem readHits_spec {s : Bytes} {o : Nat} {gs : List (List QFeature)} (hs : HasAt s o (gs.flatMap (groupBytes ser)))
    (hg : ∀ g ∈ gs, ∀ v ∈ groupVals ser g, 32 ≤ v.length ∧ v.length < 2 ^ 64) (l : List (Nat × Nat))
    (hl : ∀ j ∈ l.flatMap (fun x => List.range' x.1 x.2), j < gs.length) :
    readHits s (l.map (fun x => (spanAddr ser o gs x.1, x.2))) =
      .ok (((l.flatMap (fun x => List.range' x.1 x.2)).map (fun j => (gs[j]?).getD [])).flatMap (groupVals ser)) := by
  induction l with
  | nil => rfl
  | cons x l ih =>
    obtain ⟨a, n⟩ := x
    rw [List.flatMap_cons] at hl
    have ih := ih (fun j hj => hl j (by rw [List.mem_append]; exact .inr hj))
    rw [List.map_cons, readHits]
    dsimp only
    have hn : n = 0 ∨ (0 < n ∧ a + n ≤ gs.length) := by
      rcases Nat.eq_zero_or_pos n with h | h
      · exact .inl h
      · have := hl (a + n - 1) (by rw [List.mem_append, List.mem_range']; exact .inl ⟨n - 1, by omega, by omega⟩)
        exact .inr ⟨h, by omega⟩
    rcases hn with rfl | ⟨hn0, hn⟩
    · rw [if_neg (by simp), readSpans, Res.ok_bind, ih]
      simp
    · obtain ⟨pre, post, rfl, rfl⟩ := hs
      have hsplit : gs.flatMap (groupBytes ser) = (gs.take a).flatMap (groupBytes ser) ++
          (((gs.drop a).take n).flatMap (groupBytes ser) ++ ((gs.drop a).drop n).flatMap (groupBytes ser)) := by
        rw [← List.flatMap_append, List.take_append_drop, ← List.flatMap_append, List.take_append_drop]
      have hdrop : (pre ++ gs.flatMap (groupBytes ser) ++ post).drop (spanAddr ser pre.length gs a) =
          (((gs.drop a).take n).map (groupVals ser)).flatMap spanBytes ++ (((gs.drop a).drop n).flatMap (groupBytes ser) ++ post) := by
        rw [hsplit, spanAddr, ← List.length_append]
        have : ∀ X Y Z : Bytes, pre ++ (X ++ (Y ++ Z)) ++ post = (pre ++ X) ++ (Y ++ (Z ++ post)) := by intros; simp
        rw [this, List.drop_left]
        congr 1
        rw [List.flatMap_map]; rfl
      have hlen : spanAddr ser pre.length gs a ≤ (pre ++ gs.flatMap (groupBytes ser) ++ post).length := by
        have := spanAddr_mono (ser := ser) pre.length gs (show a ≤ gs.length by omega)
        have e : spanAddr ser pre.length gs gs.length = pre.length + (gs.flatMap (groupBytes ser)).length := by simp [spanAddr]
        rw [List.length_append, List.length_append]; omega
      rw [if_neg (by omega), hdrop]
      have hln : (((gs.drop a).take n).map (groupVals ser)).length = n := by simp; omega
      have hread := readSpans_enc (((gs.drop a).take n).map (groupVals ser)) (((gs.drop a).drop n).flatMap (groupBytes ser) ++ post) (by
        intro ss hss
        obtain ⟨g, hg', rfl⟩ := List.mem_map.1 hss
        exact hg g (List.mem_of_mem_drop (List.mem_of_mem_take hg')))
      rw [hln] at hread
      rw [hread, Res.ok_bind, ih, Res.ok_bind, List.flatMap_cons, List.map_append, List.flatMap_append, range_get gs a n hn]
      rfl

/-! ### one bucket -/

/-- `srt` is a sort by the quad key -/
def Spec.SortsByKey (srt : List QFeature → List QFeature) : Prop :=
  ∀ l, (srt l).Perm l ∧ (srt l).Pairwise (fun a b => keyLt b.key a.key = false)

def groupsOf (srt : List QFeature → List QFeature) (b : List QFeature) : List (List QFeature) :=
  equalRanges (fun x y => decide (x.key = y.key)) (srt b)

/-- an entry of a bucket: best tile below the root, with its key -/
def Placed (root : Tile) (q : QFeature) : Prop :=
  AncOrSelf root q.best ∧ q.best.z ≤ 20 ∧ makeQuadKey root q.best = .ok q.key

theorem headTile_mem {g : List QFeature} (h : g ≠ []) : ∃ q ∈ g, headTile g = q.best := by
  cases g with
  | nil => simp at h
  | cons q g => exact ⟨q, by simp, rfl⟩

theorem groups_spec {srt : List QFeature → List QFeature} (hsrt : Spec.SortsByKey srt) {root : Tile} (hr : root.z ≤ 20)
    {b : List QFeature} (hb : ∀ q ∈ b, Placed root q) :
    (groupsOf srt b).flatten = srt b ∧ (∀ g ∈ groupsOf srt b, ∃ q ∈ g, q ∈ b ∧ headTile g = q.best) ∧
    (∀ g ∈ groupsOf srt b, ∀ q ∈ g, q.best = headTile g) ∧
    (groupsOf srt b).Pairwise (fun g g' => PreOrd (headTile g) (headTile g') ∧ headTile g ≠ headTile g') := by
  have hfl : (groupsOf srt b).flatten = srt b := equalRanges_flatten _ _
  have hmem : ∀ g ∈ groupsOf srt b, ∀ q ∈ g, q ∈ b := by
    intro g hg q hq
    rw [← (hsrt b).1.mem_iff, ← hfl]
    exact List.mem_flatten.2 ⟨g, hg, hq⟩
  have hhead : ∀ g ∈ groupsOf srt b, ∃ q ∈ g, q ∈ b ∧ headTile g = q.best := by
    intro g hg
    obtain ⟨q, hq, e⟩ := headTile_mem (equalRanges_ne _ _ g hg)
    exact ⟨q, hq, hmem g hg q hq, e⟩
  obtain ⟨h1, h2⟩ := equalRanges_sorted (k := fun q : QFeature => q.key) (le := fun a b => keyLt b a = false)
    (eq := fun x y => decide (x.key = y.key)) (by simp) (fun x y h h' => keyLt_antisymm _ _ h' h) (srt b) (hsrt b).2
  have hkeys : ∀ q ∈ b, ∀ q' ∈ b, (q.key = q'.key ↔ q.best = q'.best) ∧ (keyLt q'.key q.key = false → PreOrd q.best q'.best) := by
    intro q hq q' hq'
    obtain ⟨a1, a2, a3⟩ := hb q hq
    obtain ⟨b1, b2, b3⟩ := hb q' hq'
    obtain ⟨ka, kb, ha, hb, hc, hd⟩ := keys_spec (by omega) a1 b1 (by omega) (by omega)
    rw [a3] at ha; rw [b3] at hb
    injection ha with ha; injection hb with hb
    subst ha hb
    exact ⟨hc, hd⟩
  refine ⟨hfl, hhead, ?_, ?_⟩
  · intro g hg q hq
    obtain ⟨q', hq', hb', e⟩ := hhead g hg
    rw [e]
    exact ((hkeys q (hmem g hg q hq) q' hb').1).1 (h1 g hg q hq q' hq')
  · refine List.Pairwise.imp_of_mem ?_ h2
    intro g g' hg hg' h
    obtain ⟨q, hq, hb1, e⟩ := hhead g hg
    obtain ⟨q', hq', hb2, e'⟩ := hhead g' hg'
    rw [e, e']
    have := h q hq q' hq'
    have hk := hkeys q hb1 q' hb2
    exact ⟨hk.2 this.1, fun e => this.2 (hk.1.2 e)⟩

theorem entries_ok {srt : List QFeature → List QFeature} (hsrt : Spec.SortsByKey srt) {root : Tile} (hr : root.z ≤ 20)
    {b : List QFeature} (hb : ∀ q ∈ b, Placed root q) (o : Nat) :
    QOk (entries ser o (groupsOf srt b)) ∧ (entries ser o (groupsOf srt b)).Pairwise (fun a b => PreOrd a.tile b.tile) ∧
    (∀ e ∈ entries ser o (groupsOf srt b), AncOrSelf root e.tile) ∧ (∀ e ∈ entries ser o (groupsOf srt b), e.tile.z < 2 ^ 32) := by
  obtain ⟨g1, g2, g3, g4⟩ := groups_spec hsrt hr hb
  refine ⟨⟨?_, ?_, ?_⟩, ?_, ?_, ?_⟩
  · rw [entries_tiles, List.Nodup, List.pairwise_map]
    exact g4.imp (fun h => h.2)
  · exact fun e he => (entries_mem he).1
  · intro e he; rw [(entries_mem he).2.1]; decide
  · exact entries_pairwise (g4.imp (fun h => h.1))
  · intro e he
    obtain ⟨_, _, g, hg, e1⟩ := entries_mem he
    obtain ⟨q, _, hq, e2⟩ := g2 g hg
    rw [e1, e2]; exact (hb q hq).1
  · intro e he
    obtain ⟨_, _, g, hg, e1⟩ := entries_mem he
    obtain ⟨q, _, hq, e2⟩ := g2 g hg
    rw [e1, e2]; have := (hb q hq).2.1; omega

theorem flatten_filter_groups (gs : List (List QFeature)) (hgs : ∀ g ∈ gs, ∀ q ∈ g, q.best = headTile g) (q : Tile) :
    (gs.filter (fun g => decide (Meet (headTile g) q))).flatten = gs.flatten.filter (fun x => decide (Meet x.best q)) := by
  induction gs with
  | nil => rfl
  | cons g gs ih =>
    have ih := ih (fun g hg => hgs g (by simp [hg]))
    rw [List.flatten_cons, List.filter_append, ← ih, List.filter_cons]
    have hg := hgs g (by simp)
    by_cases h : Meet (headTile g) q
    · rw [if_pos (by simpa using h), List.flatten_cons]
      congr 1
      symm
      rw [List.filter_eq_self]
      intro x hx; rw [hg x hx]; simpa using h
    · rw [if_neg (by simpa using h)]
      have : g.filter (fun x => decide (Meet x.best q)) = [] := by
        rw [List.filter_eq_nil_iff]
        intro x hx; rw [hg x hx]; simpa using h
      rw [this]; rfl

/-- looking up a tile in the tree of one bucket -/
theorem bucket_lookup {srt : List QFeature → List QFeature} (hsrt : Spec.SortsByKey srt) {root : Tile} (hr : root.z ≤ 20)
    {b : List QFeature} (hb : ∀ q ∈ b, Placed root q) {s : Bytes} (hlen : s.length ≤ 2 ^ 30) {o : Nat}
    (hs : HasAt s o ((groupsOf srt b).flatMap (groupBytes ser)))
    (hv : ∀ q ∈ b, 32 ≤ (serVal ser q.feature).length ∧ (serVal ser q.feature).length < 2 ^ 64)
    {t : Bytes} {a : Nat} (ht : makeQuadTree root (entries ser o (groupsOf srt b)) = .ok t) (hat : HasAt s a t)
    (q : Tile) (hq : q.z < 2 ^ 32) :
    ∃ hits, walkQuadTree (readNth s a) root q = .ok hits ∧
      readHits s hits = .ok (((srt b).filter (fun x => decide (Meet x.best q))).map (fun x => serVal ser x.feature)) := by
  obtain ⟨e1, e2, e3, e4⟩ := entries_ok (ser := ser) hsrt hr hb o
  obtain ⟨g1, g2, g3, g4⟩ := groups_spec hsrt hr hb
  have hsl := hs.le
  have hall : spanAddr ser o (groupsOf srt b) (groupsOf srt b).length = o + ((groupsOf srt b).flatMap (groupBytes ser)).length := by
    simp [spanAddr]
  have hlaid := laid_entries (ser := ser) o [] (groupsOf srt b) (by rw [List.nil_append, hall]; omega)
  rw [List.nil_append, List.length_nil] at hlaid
  have e0 : spanAddr ser o (groupsOf srt b) 0 = o := by simp [spanAddr]
  rw [e0] at hlaid
  have hcount : (groupsOf srt b).length ≤ ((groupsOf srt b).flatMap (groupBytes ser)).length := by
    generalize groupsOf srt b = gs
    induction gs with
    | nil => simp
    | cons g gs ih =>
      have : 0 < (groupBytes ser g).length := by
        rw [groupBytes, spanBytes, List.length_append]
        have := encVarint_length_pos 0
        rw [spanEnd]; omega
      rw [List.flatMap_cons, List.length_append, List.length_cons]; omega
  obtain ⟨pre, post, rfl, rfl⟩ := hat
  obtain ⟨r, hr1, hr2⟩ := C10_walk_exact root _ e1 e2 (by omega) e3 e4 (spanAddr ser o (groupsOf srt b))
    (fun i j h => spanAddr_mono _ _ h) hlaid (by rw [owners_entries, List.length_map]; omega) t pre post ht (by
      simp only [List.length_append] at hlen; omega) q hq
  refine ⟨r, hr1, ?_⟩
  obtain ⟨l, hl1, hl2⟩ := hr2
  have hw : wanted q (entries ser o (groupsOf srt b)) =
      (List.range (groupsOf srt b).length).filter (fun j => decide (Meet (headTile (((groupsOf srt b)[j]?).getD [])) q)) := by
    rw [wanted, owners_entries, List.length_map]
    apply List.filter_congr
    intro j hj
    rw [List.mem_range] at hj
    simp [hj]
  rw [hl1, readHits_spec hs _ l]
  · rw [hl2, hw, filter_range_get _ (fun g => decide (Meet (headTile g) q))]
    congr 1
    rw [← g1, ← flatten_filter_groups _ g3, List.map_flatten, List.flatMap_def]
    rfl
  · rw [hl2, hw]
    intro j hj
    exact List.mem_range.1 (List.mem_filter.1 hj).1
  · intro g hg v hv'
    obtain ⟨x, hx, rfl⟩ := List.mem_map.1 hv'
    apply hv
    rw [← (hsrt b).1.mem_iff, ← g1]
    exact List.mem_flatten.2 ⟨g, hg, hx⟩

theorem tree_ne_nil {srt : List QFeature → List QFeature} (hsrt : Spec.SortsByKey srt) {root : Tile} (hr : root.z ≤ 20)
    {b : List QFeature} (hb : ∀ q ∈ b, Placed root q) {s : Bytes} (hlen : s.length ≤ 2 ^ 30) {o : Nat}
    (hs : HasAt s o ((groupsOf srt b).flatMap (groupBytes ser)))
    (hv : ∀ q ∈ b, 32 ≤ (serVal ser q.feature).length ∧ (serVal ser q.feature).length < 2 ^ 64)
    {t : Bytes} (ht : makeQuadTree root (entries ser o (groupsOf srt b)) = .ok t) : t ≠ [] := by
  rintro rfl
  obtain ⟨hits, h, _⟩ := bucket_lookup hsrt hr hb hlen hs hv ht ⟨s, [], by simp, rfl⟩ root (by omega)
  rw [walkQuadTree, readNth, if_neg (by omega)] at h
  simp at h

/-! ### all buckets -/

def bucketBytes (ser : Feature → Res Bytes) (srt : List QFeature → List QFeature) (b : List QFeature) : Bytes :=
  (groupsOf srt b).flatMap (groupBytes ser)

theorem groupsOf_nil {srt : List QFeature → List QFeature} (hsrt : Spec.SortsByKey srt) : groupsOf srt [] = [] := by
  have : srt [] = [] := List.Perm.eq_nil (hsrt []).1
  rw [groupsOf, this]; rfl

/-- what is known about the tree of a bucket -/
def TreeOf (ser : Feature → Res Bytes) (srt : List QFeature → List QFeature) (root : Tile) (s : Bytes) (t : Bytes) (b : List QFeature) : Prop :=
  (b = [] ∧ t = []) ∨ (b ≠ [] ∧ ∃ o, HasAt s o (bucketBytes ser srt b) ∧ makeQuadTree root (entries ser o (groupsOf srt b)) = .ok t)

theorem packBuckets_inv {srt : List QFeature → List QFeature} (hsrt : Spec.SortsByKey srt) {root : Tile} {bs : List (List QFeature)}
    {buf buf' : Bytes} {ts : List Bytes} (h : packBuckets srt ser root buf bs = .ok (buf', ts)) :
    buf' = buf ++ bs.flatMap (bucketBytes ser srt) ∧ (∀ b ∈ bs, ∀ q ∈ b, SerOk ser q.feature) ∧
    ∀ s, HasAt s buf.length (bs.flatMap (bucketBytes ser srt)) → List.Forall₂ (TreeOf ser srt root s) ts bs := by
  induction bs generalizing buf buf' ts with
  | nil =>
    injection h with h
    injection h with h1 h2
    subst h1 h2
    exact ⟨by simp, by simp, fun _ _ => List.Forall₂.nil⟩
  | cons b bs ih =>
    rw [packBuckets] at h
    by_cases hb : b = []
    · subst hb
      have hb0 : bucketBytes ser srt [] = [] := by rw [bucketBytes, groupsOf_nil hsrt]; rfl
      rw [if_pos (by rfl), Res.bind_eq_ok] at h
      obtain ⟨⟨x, y⟩, h1, h2⟩ := h
      injection h2 with h2
      injection h2 with h2 h3
      subst h2 h3
      obtain ⟨i1, i2, i3⟩ := ih h1
      rw [List.flatMap_cons, hb0, List.nil_append]
      refine ⟨i1, ?_, fun s hs => List.Forall₂.cons (.inl ⟨rfl, rfl⟩) (i3 s hs)⟩
      intro b' hb'
      rcases List.mem_cons.1 hb' with rfl | hb'
      · simp
      · exact i2 b' hb'
    · rw [if_neg (by simpa using hb), Res.bind_eq_ok] at h
      obtain ⟨⟨x, es⟩, h1, h⟩ := h
      rw [Res.bind_eq_ok] at h
      obtain ⟨t, h2, h⟩ := h
      rw [Res.bind_eq_ok] at h
      obtain ⟨⟨y, tt⟩, h3, h⟩ := h
      injection h with h
      injection h with h4 h5
      subst h4 h5
      have hser := packGroups_inv h1
      rw [packGroups_ok _ hser] at h1
      injection h1 with h1
      injection h1 with h1 h1'
      subst h1 h1'
      obtain ⟨i1, i2, i3⟩ := ih h3
      refine ⟨?_, ?_, ?_⟩
      · rw [i1, List.flatMap_cons, List.append_assoc]; rfl
      · intro b' hb' q hq
        rcases List.mem_cons.1 hb' with rfl | hb'
        · have hfl : (groupsOf srt b').flatten = srt b' := equalRanges_flatten _ _
          rw [← (hsrt b').1.mem_iff, ← hfl] at hq
          obtain ⟨g, hg, hq⟩ := List.mem_flatten.1 hq
          exact hser g hg q hq
        · exact i2 b' hb' q hq
      · intro s hs
        rw [List.flatMap_cons] at hs
        have h0 := hs.append
        refine List.Forall₂.cons (.inr ⟨hb, buf.length, h0.1, h2⟩) (i3 s ?_)
        rw [List.length_append]
        exact h0.2

theorem packBuckets_ok {srt : List QFeature → List QFeature} (hsrt : Spec.SortsByKey srt) {root : Tile} (hr : root.z ≤ 20) {bs : List (List QFeature)}
    (buf : Bytes) (hp : ∀ b ∈ bs, ∀ q ∈ b, Placed root q) (hs : ∀ b ∈ bs, ∀ q ∈ b, SerOk ser q.feature) :
    ∃ r, packBuckets srt ser root buf bs = .ok r := by
  induction bs generalizing buf with
  | nil => exact ⟨_, rfl⟩
  | cons b bs ih =>
    have ih := fun buf => ih buf (fun b hb => hp b (by simp [hb])) (fun b hb => hs b (by simp [hb]))
    rw [packBuckets]
    by_cases hb : b = []
    · rw [if_pos (by simp [hb])]
      obtain ⟨r, hr⟩ := ih buf
      rw [hr]; exact ⟨_, rfl⟩
    · rw [if_neg (by simpa using hb)]
      have h1 := packGroups_ok (ser := ser) (gs := groupsOf srt b) buf (by
        intro g hg q hq
        apply hs b (by simp)
        rw [← (hsrt b).1.mem_iff, ← equalRanges_flatten (fun x y => decide (x.key = y.key)) (srt b)]
        exact List.mem_flatten.2 ⟨g, hg, hq⟩)
      rw [groupsOf] at h1
      rw [h1, Res.ok_bind]
      dsimp only
      obtain ⟨e1, e2, e3, e4⟩ := entries_ok (ser := ser) hsrt hr (hp b (by simp)) buf.length
      obtain ⟨t, ht, _⟩ := C10_build_total root _ e1 e2 e3 e4
      rw [groupsOf] at ht
      rw [ht, Res.ok_bind]
      obtain ⟨r, hr⟩ := ih (buf ++ (equalRanges (fun x y => decide (x.key = y.key)) (srt b)).flatMap (groupBytes ser))
      rw [hr]; exact ⟨_, rfl⟩

/-- where the trees end up -/
def OffsetOf (s : Bytes) (o : Nat) (t : Bytes) : Prop := (t = [] ∧ o = 0) ∨ (t ≠ [] ∧ o ≠ 0 ∧ o < 2 ^ 64 ∧ HasAt s o t)

theorem appendTrees_spec (buf : Bytes) (ts : List Bytes) (hb : 0 < buf.length) :
    (appendTrees buf ts).1 = buf ++ ts.flatten ∧
    ∀ s, s.length < 2 ^ 32 → HasAt s buf.length ts.flatten → List.Forall₂ (OffsetOf s) (appendTrees buf ts).2 ts := by
  induction ts generalizing buf with
  | nil => exact ⟨by simp [appendTrees], fun _ _ _ => List.Forall₂.nil⟩
  | cons t ts ih =>
    obtain ⟨i1, i2⟩ := ih (buf ++ t) (by rw [List.length_append]; omega)
    rw [appendTrees]
    refine ⟨by simp [i1], ?_⟩
    intro s hl hs
    rw [List.flatten_cons] at hs
    have h0 := hs.append
    have hle := h0.1.le
    refine List.Forall₂.cons ?_ (i2 s hl (by rw [List.length_append]; exact h0.2))
    by_cases ht : t = []
    · exact .inl ⟨ht, by simp [ht]⟩
    · have e : (if t.isEmpty = true then 0 else buf.length % 2 ^ 32) = buf.length := by
        rw [if_neg (by simpa using ht), Nat.mod_eq_of_lt (by omega)]
      rw [e]
      exact .inr ⟨ht, by omega, by omega, h0.1⟩

theorem readLevels_spec {s : Bytes} {root q : Tile} {α : Type} {res : α → List Bytes} {offs : List Nat} {bs : List α}
    (h : List.Forall₂ (fun o b => o < 2 ^ 64 ∧ ((o = 0 ∧ res b = []) ∨
      (o ≠ 0 ∧ ∃ hits, walkQuadTree (readNth s o) root q = .ok hits ∧ readHits s hits = .ok (res b)))) offs bs)
    (n : Nat) (hn : n ≤ bs.length) (rest : Bytes) :
    readLevels s root q n (offs.flatMap encVarint ++ rest) = .ok ((bs.take n).flatMap res) := by
  induction h generalizing n with
  | nil => have : n = 0 := by simpa using hn
           subst this; rfl
  | cons h0 _ ih =>
    rename_i o b offs bs _
    cases n with
    | zero => rfl
    | succ n =>
      rw [List.flatMap_cons, List.append_assoc, readLevels, decVarint_enc o _ h0.1, Res.ok_bind]
      dsimp only
      have ih := ih n (by simpa using hn)
      rcases h0.2 with ⟨h1, h2⟩ | ⟨h1, hits, h2, h3⟩
      · rw [if_pos h1, ih, List.take_succ_cons, List.flatMap_cons, h2]; rfl
      · rw [if_neg h1, h2, Res.ok_bind, h3, Res.ok_bind, ih]
        rfl

end Tiles
