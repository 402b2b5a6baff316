import Verif.Proof.IndexedPackTop
/-! How large an indexed pack is: the features, and at most 182 bytes for each and 69 in all (for index tiles of zoom level 10). -/
namespace Tiles
open Spec

/-! ### the tree -/

/-- number of nodes of the trees of a level -/
def qTotal (m : List (Tile × Qt)) : Nat := (m.map (fun e => e.2.count)).sum

theorem attach_count (n c : Qt) (pos : Nat) : (n.attach pos c).count ≤ n.count + c.count := by
  cases n with
  | none => simp [Qt.attach, Qt.count]
  | node o s t c0 c1 c2 c3 =>
    unfold Qt.attach
    dsimp only
    split <;> simp only [Qt.count] <;> omega

theorem mapUpdate_size (k : Tile) (f : Option Qt → Qt) (c : Nat) (h1 : (f none).count ≤ c) (h2 : ∀ v, (f (some v)).count ≤ v.count + c) :
    ∀ m : List (Tile × Qt), (mapUpdate m k f).length ≤ m.length + 1 ∧ qTotal (mapUpdate m k f) ≤ qTotal m + c := by
  intro m
  induction m with
  | nil => simp [mapUpdate, qTotal]; exact h1
  | cons e m ih =>
    obtain ⟨k', v⟩ := e
    rw [mapUpdate]
    split
    · have := h2 v
      simp only [qTotal, List.map_cons, List.sum_cons, List.length_cons]
      exact ⟨by omega, by omega⟩
    · simp only [qTotal, List.map_cons, List.sum_cons, List.length_cons] at ih ⊢
      exact ⟨by omega, by omega⟩

theorem qInputs_size (es : List QInput) (z : Nat) : (qInputs es z).length ≤ (es.filter (fun e => decide (e.tile.z = z))).length ∧
    qTotal (qInputs es z) ≤ (es.filter (fun e => decide (e.tile.z = z))).length := by
  have key : ∀ (es : List QInput) (m : List (Tile × Qt)),
      (es.foldl (fun m e => if e.tile.z = z then mapUpdate m e.tile (fun _ => .node e.offset e.size e.size .none .none .none .none) else m) m).length ≤
        m.length + (es.filter (fun e => decide (e.tile.z = z))).length ∧
      qTotal (es.foldl (fun m e => if e.tile.z = z then mapUpdate m e.tile (fun _ => .node e.offset e.size e.size .none .none .none .none) else m) m) ≤
        qTotal m + (es.filter (fun e => decide (e.tile.z = z))).length := by
    intro es
    induction es with
    | nil => intro m; exact ⟨Nat.le_refl _, Nat.le_refl _⟩
    | cons e es ih =>
      intro m
      rw [List.foldl_cons]
      by_cases hz : e.tile.z = z
      · rw [if_pos hz, List.filter_cons_of_pos (by simpa using hz), List.length_cons]
        have h1 := ih (mapUpdate m e.tile (fun _ => .node e.offset e.size e.size .none .none .none .none))
        have h2 := mapUpdate_size e.tile (fun _ => .node e.offset e.size e.size .none .none .none .none) 1 (by simp [Qt.count]) (by simp [Qt.count]) m
        omega
      · rw [if_neg hz, List.filter_cons_of_neg (by simpa using hz)]
        exact ih m
  have := key es []
  simpa [qInputs, qTotal] using this

theorem qFold_size : ∀ (L m : List (Tile × Qt)), (L.foldl qAttach m).length ≤ m.length + L.length ∧ qTotal (L.foldl qAttach m) ≤ qTotal m + qTotal L + L.length := by
  intro L
  induction L with
  | nil => intro m; simp [qTotal]
  | cons e L ih =>
    intro m
    rw [List.foldl_cons]
    have h1 := ih (qAttach m e)
    have h2 := mapUpdate_size e.1.parent (fun o => (o.getD Qt.fresh).attach e.1.quadPos e.2) (e.2.count + 1) (by
      have := attach_count Qt.fresh e.2 e.1.quadPos
      have hf : Qt.fresh.count = 1 := rfl
      simp only [Option.getD_none]; omega) (by
      intro v
      have := attach_count v e.2 e.1.quadPos
      simp only [Option.getD_some]; omega) m
    rw [show mapUpdate m e.1.parent (fun o => (o.getD Qt.fresh).attach e.1.quadPos e.2) = qAttach m e from rfl] at h2
    simp only [qTotal, List.map_cons, List.sum_cons, List.length_cons] at h1 h2 ⊢
    omega

/-- the entries of the lowest `d + 1` levels -/
def qBelow (es : List QInput) (maxz d : Nat) : Nat := (es.filter (fun e => decide (maxz - d ≤ e.tile.z ∧ e.tile.z ≤ maxz))).length

theorem qBelow_succ (es : List QInput) (maxz d : Nat) (h : d + 1 ≤ maxz) :
    qBelow es maxz (d + 1) = qBelow es maxz d + (es.filter (fun e => decide (e.tile.z = maxz - (d + 1)))).length := by
  unfold qBelow
  induction es with
  | nil => rfl
  | cons e es ih =>
    simp only [List.filter_cons]
    by_cases h1 : e.tile.z = maxz - (d + 1)
    · rw [if_pos (by simp only [decide_eq_true_eq]; omega), if_neg (by simp only [decide_eq_true_eq]; omega), if_pos (by simpa using h1)]
      simp only [List.length_cons]; omega
    · rw [if_neg (c := decide (e.tile.z = _) = true) (by simpa using h1)]
      by_cases h2 : maxz - d ≤ e.tile.z ∧ e.tile.z ≤ maxz
      · rw [if_pos (by simp only [decide_eq_true_eq]; omega), if_pos (by simpa using h2)]
        simp only [List.length_cons]; omega
      · rw [if_neg (by simp only [decide_eq_true_eq]; omega), if_neg (by simpa using h2)]
        exact ih

theorem qLevel_size (es : List QInput) (maxz : Nat) : ∀ d ≤ maxz, (qLevel es maxz d).length ≤ qBelow es maxz d ∧ qTotal (qLevel es maxz d) ≤ (d + 1) * qBelow es maxz d := by
  intro d
  induction d with
  | zero =>
    intro _
    have h := qInputs_size es maxz
    have : qBelow es maxz 0 = (es.filter (fun e => decide (e.tile.z = maxz))).length := by
      unfold qBelow; congr 1; apply List.filter_congr; intro e _; rw [decide_eq_decide]; omega
    rw [qLevel, this]
    omega
  | succ d ih =>
    intro hd
    obtain ⟨i1, i2⟩ := ih (by omega)
    have h1 := qInputs_size es (maxz - (d + 1))
    have h2 := qFold_size (qLevel es maxz d) (qInputs es (maxz - (d + 1)))
    rw [qLevel, qBelow_succ es maxz d hd]
    generalize (es.filter (fun e => decide (e.tile.z = maxz - (d + 1)))).length = k at h1
    refine ⟨by omega, ?_⟩
    have : (d + 1 + 1) * (qBelow es maxz d + k) = (d + 1) * qBelow es maxz d + qBelow es maxz d + (d + 1 + 1) * k := by ring
    have : k ≤ (d + 1 + 1) * k := Nat.le_mul_of_pos_left k (by omega)
    omega

/-- A tree of `n` entries, none deeper than level `m`, has at most 16 bytes for each entry and each level. -/
theorem makeQuadTree_size {root : Tile} {es : List QInput} {b : Bytes} (h : makeQuadTree root es = .ok b) (m : Nat) (hr : root.z ≤ m) (hes : ∀ e ∈ es, e.tile.z ≤ m) :
    b.length ≤ max 16 (16 * ((m + 1 - root.z) * es.length)) := by
  rw [makeQuadTree] at h
  obtain ⟨ws, h1, h⟩ := Res.bind_eq_ok.1 h
  injection h with h
  subst h
  rw [flatMap_leBytes_length]
  rw [makeQuadTreeWords] at h1
  split at h1
  · injection h1 with h1; subst h1
    simp
  obtain ⟨n, h2, h3⟩ := Res.bind_eq_ok.1 h1
  rw [makeTmpQuadTree] at h2
  split at h2
  · cases h2
  split at h2
  · rename_i hlv
    split at h2
    · injection h2 with h2; subst h2
      have hmax : root.z ≤ qMaxZ root es ∧ qMaxZ root es ≤ m := by
        have key : ∀ (es : List QInput) (a : Nat), a ≤ m → (∀ e ∈ es, e.tile.z ≤ m) → a ≤ es.foldl (fun a e => max a e.tile.z) a ∧ es.foldl (fun a e => max a e.tile.z) a ≤ m := by
          intro es
          induction es with
          | nil => intro a ha _; exact ⟨Nat.le_refl _, ha⟩
          | cons e es ih =>
            intro a ha he
            have h1 := he e (by simp)
            have := ih (max a e.tile.z) (by omega) (fun e' h' => he e' (by simp [h']))
            rw [List.foldl_cons]
            omega
        exact key es root.z hr hes
      have hs := (qLevel_size es (qMaxZ root es) (qMaxZ root es - root.z) (by omega)).2
      rw [hlv] at hs
      have hb : qBelow es (qMaxZ root es) (qMaxZ root es - root.z) ≤ es.length := List.length_filter_le _ _
      rename_i k n' _
      have hcount : n'.count ≤ (m + 1 - root.z) * es.length := by
        have h4 : qTotal [(k, n')] = n'.count := by simp [qTotal]
        rw [h4] at hs
        refine le_trans hs (Nat.mul_le_mul (by omega) hb)
      by_cases hn : n'.isNode = true
      · obtain ⟨vec, k1, k2, _⟩ := qSerialize_spec hn
        rw [h3] at k1; injection k1 with k1; subst k1
        rw [k2]
        omega
      · cases n' with
        | none =>
          rw [qSerialize, Qt.count, qSerLoop] at h3
          cases h3
        | node => simp [Qt.isNode] at hn
    · cases h2
  · cases h2

/-! ### the pack -/

/-- the bytes of the serialized features, `c` more for each -/
def serBytes (ser : Feature → Res Bytes) (c : Nat) (fs : List Feature) : Nat := (fs.map (fun f => (match ser f with | .ok b => b.length | _ => 0) + c)).sum

theorem serBytes_cons (ser : Feature → Res Bytes) (c : Nat) (f : Feature) (fs : List Feature) :
    serBytes ser c (f :: fs) = (match ser f with | .ok b => b.length | _ => 0) + c + serBytes ser c fs := by simp [serBytes]

theorem serBytes_append (ser : Feature → Res Bytes) (c : Nat) (a b : List Feature) : serBytes ser c (a ++ b) = serBytes ser c a + serBytes ser c b := by simp [serBytes]

theorem serBytes_add (ser : Feature → Res Bytes) (c d : Nat) (fs : List Feature) : serBytes ser (c + d) fs = serBytes ser c fs + d * fs.length := by
  induction fs with
  | nil => simp [serBytes]
  | cons f fs ih => rw [serBytes_cons, serBytes_cons, ih, List.length_cons]; ring

theorem serBytes_perm (ser : Feature → Res Bytes) (c : Nat) {a b : List Feature} (h : a.Perm b) : serBytes ser c a = serBytes ser c b := (h.map _).sum_nat

theorem varint_len : ∀ (k v : Nat), v < 128 ^ (k + 1) → (encVarint v).length ≤ k + 1 := by
  intro k
  induction k with
  | zero => intro v hv; rw [encVarint, if_pos (by simpa using hv)]; simp
  | succ k ih =>
    intro v hv
    rw [encVarint]
    split
    · simp
    · rw [List.length_cons]
      have := ih (v / 128) (by rw [Nat.div_lt_iff_lt_mul (by decide)]; rw [Nat.pow_succ] at hv; exact hv)
      omega

variable (ser : Feature → Res Bytes)

theorem span_size {g : List QFeature} (hg : ∀ q ∈ g, ∀ b, ser q.feature = .ok b → b.length < 2 ^ 32) {b : Bytes} (h : spanOf ser g = .ok b) :
    b.length ≤ serBytes ser 5 (g.map (·.feature)) + 1 := by
  rw [spanOf] at h
  obtain ⟨ss, h1, h'⟩ := Res.bind_eq_ok.1 h
  rw [appendFeatures] at h'
  clear h
  rename' h' => h
  obtain ⟨bs, h2, hb⟩ := Res.bind_eq_ok.1 h
  injection hb with hb
  rw [← hb]
  clear hb h
  have hl : (encVarint 0).length = 1 := by rw [encVarint]; rfl
  rw [List.length_append, spanEnd, hl]
  suffices bs.length ≤ serBytes ser 5 (g.map (·.feature)) by omega
  have hg' : ∀ f ∈ g.map (·.feature), ∀ b, ser f = .ok b → b.length < 2 ^ 32 := by
    intro f hf
    obtain ⟨q, hq, rfl⟩ := List.mem_map.1 hf
    exact hg q hq
  generalize g.map (·.feature) = fs at h1 hg'
  induction fs generalizing ss bs with
  | nil =>
    injection h1 with h1; subst h1
    injection h2 with h2; subst h2
    exact Nat.zero_le _
  | cons f fs ih =>
    rw [serializeAll] at h1
    obtain ⟨s, h3, h1⟩ := Res.bind_eq_ok.1 h1
    obtain ⟨ss', h4, h1⟩ := Res.bind_eq_ok.1 h1
    injection h1 with h1; subst h1
    rw [appendFeatureList] at h2
    obtain ⟨a, h5, h2⟩ := Res.bind_eq_ok.1 h2
    obtain ⟨bs', h6, h2⟩ := Res.bind_eq_ok.1 h2
    injection h2 with h2; subst h2
    have := ih ss' bs' h6 h4 (fun f hf => hg' f (by simp [hf]))
    rw [appendFeature] at h5
    obtain ⟨_, _, h5⟩ := Res.bind_eq_ok.1 h5
    injection h5 with h5; subst h5
    have hlen := hg' f (by simp) s h3
    have hv := varint_len 4 s.length (by norm_num; omega)
    rw [serBytes_cons, h3]
    simp only [List.length_append]
    omega

theorem groups_size : ∀ {gs : List (List QFeature)} (hg : ∀ g ∈ gs, ∀ q ∈ g, ∀ b, ser q.feature = .ok b → b.length < 2 ^ 32) {buf buf' : Bytes} {es : List QInput},
    packGroups ser buf gs = .ok (buf', es) → buf'.length ≤ buf.length + serBytes ser 5 (gs.flatten.map (·.feature)) + gs.length ∧ es.length = gs.length ∧
      ∀ e ∈ es, ∃ g ∈ gs, e.tile = (g.head?.map (·.best)).getD default := by
  intro gs
  induction gs with
  | nil =>
    intro _ buf buf' es h
    injection h with h
    injection h with h1 h2
    subst h1 h2
    exact ⟨by simp [serBytes], rfl, by simp⟩
  | cons g gs ih =>
    intro hg buf buf' es h
    rw [packGroups] at h
    obtain ⟨b, h1, h⟩ := Res.bind_eq_ok.1 h
    obtain ⟨⟨buf2, es2⟩, h2, h⟩ := Res.bind_eq_ok.1 h
    dsimp only at h
    injection h with h
    injection h with h3 h4
    subst h3 h4
    obtain ⟨i1, i2, i3⟩ := ih (fun g' hg' => hg g' (by simp [hg'])) h2
    have := span_size ser (hg g (by simp)) h1
    rw [List.flatten_cons, List.map_append, serBytes_append]
    simp only [List.length_append, List.length_cons] at i1 ⊢
    refine ⟨by omega, by omega, fun e he => ?_⟩
    rcases List.mem_cons.1 he with rfl | he
    · exact ⟨g, by simp, rfl⟩
    · obtain ⟨g', k1, k2⟩ := i3 e he
      exact ⟨g', by simp [k1], k2⟩

theorem equalRanges_length {α : Type} (eq : α → α → Bool) (l : List α) : (equalRanges eq l).length ≤ l.length := by
  induction l with
  | nil => exact Nat.le_refl _
  | cons a l ih =>
    rw [equalRanges]
    split
    · rename_i h
      rw [h] at ih
      split <;> simp only [List.length_cons] at ih ⊢ <;> omega
    · simp only [List.length_cons]; omega

variable (srt : List QFeature → List QFeature)

theorem buckets_size (hsrt : SortsByKey srt) {root : Tile} (hr : root.z ≤ 20) : ∀ {bs : List (List QFeature)}
    (hb : ∀ b ∈ bs, ∀ q ∈ b, q.best.z ≤ 20 ∧ ∀ x, ser q.feature = .ok x → x.length < 2 ^ 32) {buf buf' : Bytes} {ts : List Bytes},
    packBuckets srt ser root buf bs = .ok (buf', ts) →
      buf'.length + (ts.map List.length).sum ≤ buf.length + serBytes ser (6 + 16 * (21 - root.z)) (bs.flatten.map (·.feature)) ∧ ts.length = bs.length := by
  intro bs
  induction bs with
  | nil =>
    intro _ buf buf' ts h
    injection h with h
    injection h with h1 h2
    subst h1 h2
    exact ⟨by simp, rfl⟩
  | cons b bs ih =>
    intro hb buf buf' ts h
    rw [packBuckets] at h
    have hb' : ∀ b' ∈ bs, ∀ q ∈ b', q.best.z ≤ 20 ∧ ∀ x, ser q.feature = .ok x → x.length < 2 ^ 32 := fun b' hb1 => hb b' (by simp [hb1])
    split at h
    · rename_i he
      obtain ⟨⟨buf2, ts2⟩, h1, h⟩ := Res.bind_eq_ok.1 h
      dsimp only at h
      injection h with h
      injection h with h2 h3
      subst h2 h3
      obtain ⟨i1, i2⟩ := ih hb' h1
      rw [List.isEmpty_iff] at he
      subst he
      refine ⟨by simpa using i1, by simp [i2]⟩
    · rename_i he
      obtain ⟨⟨buf2, es⟩, h1, h⟩ := Res.bind_eq_ok.1 h
      dsimp only at h
      obtain ⟨t, h2, h⟩ := Res.bind_eq_ok.1 h
      obtain ⟨⟨buf3, ts3⟩, h3, h⟩ := Res.bind_eq_ok.1 h
      dsimp only at h
      injection h with h
      injection h with h4 h5
      subst h4 h5
      obtain ⟨i1, i2⟩ := ih hb' h3
      have hperm := (hsrt b).1
      have hfl : (equalRanges (fun x y => decide (x.key = y.key)) (srt b)).flatten = srt b := equalRanges_flatten _ _
      have hmem : ∀ g ∈ equalRanges (fun x y => decide (x.key = y.key)) (srt b), ∀ q ∈ g, q ∈ b := by
        intro g hg q hq
        refine hperm.mem_iff.1 ?_
        rw [← hfl]
        exact List.mem_flatten.2 ⟨g, hg, hq⟩
      obtain ⟨g1, g2, g3⟩ := groups_size ser (gs := equalRanges (fun x y => decide (x.key = y.key)) (srt b))
        (fun g hg q hq => (hb b (by simp) q (hmem g hg q hq)).2) h1
      have hn := equalRanges_length (fun x y : QFeature => decide (x.key = y.key)) (srt b)
      rw [hfl, serBytes_perm ser 5 (hperm.map _)] at g1
      have ht := makeQuadTree_size h2 20 hr (by
        intro e he
        obtain ⟨g, hg, hgt⟩ := g3 e he
        obtain ⟨q, qs, rfl⟩ := List.exists_cons_of_ne_nil (equalRanges_ne _ _ g hg)
        rw [hgt]
        exact (hb b (by simp) q (hmem _ hg q (by simp))).1)
      rw [g2, show 20 + 1 - root.z = 21 - root.z from rfl] at ht
      rw [hperm.length_eq] at hn
      have hpos : 0 < b.length := by
        cases b with
        | nil => simp at he
        | cons => simp
      have hmul : (21 - root.z) * (equalRanges (fun x y => decide (x.key = y.key)) (srt b)).length ≤ (21 - root.z) * b.length := Nat.mul_le_mul_left _ hn
      have hone : 1 ≤ (21 - root.z) * b.length := Nat.mul_pos (by omega) hpos
      have ht' : t.length ≤ 16 * ((21 - root.z) * b.length) := by
        refine le_trans ht (max_le (by omega) (by omega))
      have hs : serBytes ser (6 + 16 * (21 - root.z)) (b.map (·.feature)) = serBytes ser 5 (b.map (·.feature)) + b.length + 16 * ((21 - root.z) * b.length) := by
        rw [show 6 + 16 * (21 - root.z) = 5 + (1 + 16 * (21 - root.z)) by omega, serBytes_add, List.length_map]; ring
      rw [List.flatten_cons, List.map_append, serBytes_append, hs]
      simp only [List.map_cons, List.sum_cons, List.length_cons]
      refine ⟨by omega, by omega⟩

theorem appendTrees_size : ∀ (ts : List Bytes) (buf : Bytes), (appendTrees buf ts).1.length = buf.length + (ts.map List.length).sum ∧
    (appendTrees buf ts).2.length = ts.length ∧ ∀ o ∈ (appendTrees buf ts).2, o < 2 ^ 32 := by
  intro ts
  induction ts with
  | nil => intro buf; exact ⟨by simp [appendTrees], rfl, by simp [appendTrees]⟩
  | cons t ts ih =>
    intro buf
    obtain ⟨i1, i2, i3⟩ := ih (buf ++ t)
    rw [appendTrees]
    simp only [List.map_cons, List.sum_cons, List.length_cons]
    refine ⟨by rw [i1, List.length_append]; omega, by omega, fun o ho => ?_⟩
    rcases List.mem_cons.1 ho with rfl | ho
    · split <;> omega
    · exact i3 o ho

theorem varints_size : ∀ (os : List Nat), (∀ o ∈ os, o < 2 ^ 32) → (os.flatMap encVarint).length ≤ 5 * os.length := by
  intro os
  induction os with
  | nil => intro _; simp
  | cons o os ih =>
    intro h
    have h1 := ih (fun o' ho => h o' (by simp [ho]))
    have h2 := varint_len 4 o (by have := h o (by simp); norm_num at this ⊢; omega)
    simp only [List.flatMap_cons, List.length_append, List.length_cons]
    omega

/-- The size of an indexed pack. -/
theorem packIndexed_size (crc : Bytes → UInt32) (hsrt : SortsByKey srt) {root : Tile} (hv : root.Valid) (hr : root.z ≤ 20) {fs : List Feature} {x : Bytes}
    (hfs : ∀ f ∈ fs, ∀ b, ser f = .ok b → b.length < 2 ^ 32)
    (h : packIndexedFeatures crc srt ser root fs = .ok x) : x.length ≤ serBytes ser (6 + 16 * (21 - root.z)) fs + 5 * (21 - root.z) + 14 := by
  rw [packIndexedFeatures] at h
  obtain ⟨_, _, h⟩ := Res.bind_eq_ok.1 h
  obtain ⟨qs, h1, h⟩ := Res.bind_eq_ok.1 h
  dsimp only at h
  obtain ⟨hd, h2, h⟩ := Res.bind_eq_ok.1 h
  obtain ⟨⟨buf, ts⟩, h3, h⟩ := Res.bind_eq_ok.1 h
  dsimp only at h
  injection h with h
  subst h
  obtain ⟨l1, l2⟩ := locateAll_spec hv hr h1
  have hhd : hd.length = 10 := by
    rw [finishHeader] at h2
    obtain ⟨_, _, h2⟩ := Res.bind_eq_ok.1 h2
    injection h2 with h2; subst h2
    rfl
  have hmem : ∀ b ∈ bucketsOf root qs, ∀ q ∈ b, q ∈ qs := fun b hb q hq => of_mem_buckets hb hq
  obtain ⟨s1, s2⟩ := buckets_size ser srt hsrt hr (bs := bucketsOf root qs) (by
    intro b hb q hq
    have hq' := hmem b hb q hq
    obtain ⟨p1, p2, p3⟩ := l2 q hq'
    refine ⟨?_, fun x hx => hfs q.feature (by rw [← l1]; exact List.mem_map.2 ⟨q, hq', rfl⟩) x hx⟩
    obtain ⟨b1, b2, b3, _⟩ := findBestLoop_spec _ _ root q.best hv (by simp only [kMaxZoomLevel]; omega) p2
    simp only [kMaxZoomLevel] at *
    omega) h3
  have hbl : (bucketsOf root qs).length = 21 - root.z := by
    show ((List.range (kMaxZoomLevel + 1 - root.z)).map _).length = _
    rw [List.length_map, List.length_range, kMaxZoomLevel]
  obtain ⟨a1, a2, a3⟩ := appendTrees_size ts buf
  have hvar := varints_size _ a3
  have hperm : ((bucketsOf root qs).flatten.map (·.feature)).Perm fs := by
    have := bucket_perm (fun q : QFeature => bucketOf root q.feature) qs (kMaxZoomLevel + 1 - root.z)
    rw [List.filter_eq_self.2 (by
      intro q hq
      exact decide_eq_true (l2 q hq).2.2)] at this
    have h' := this.map (·.feature)
    rw [l1, List.flatMap_def] at h'
    exact h'
  rw [serBytes_perm ser _ hperm] at s1
  rw [finishPack]
  have hl4 : ∀ n, (leBytes 4 n).length = 4 := fun n => rfl
  simp only [List.length_append, List.length_take, List.length_drop, hl4]
  rw [a1]
  rw [a2, s2, hbl] at hvar
  omega

end Tiles
