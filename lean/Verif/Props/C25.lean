import Verif.Model.LayerNames
import Verif.Proof.Pbf
import Mathlib.Data.List.Nodup
/-! C25 — layer names keep their index, also across store and load. -/
namespace Tiles

/-- the map as the list of names in index order -/
def NameMap.Of (m : NameMap) (names : List Bytes) : Prop := m = names.zipIdx ∧ names.Nodup

theorem lookup_zipIdx_of {κ : Type} [DecidableEq κ] {names : List κ} {k : κ} {i n : Nat} (hd : names.Nodup) (h : names[i]? = some k) :
    (names.zipIdx n).lookup k = some (n + i) := by
  induction names generalizing i n with
  | nil => simp at h
  | cons a names ih =>
    rw [List.zipIdx_cons, List.lookup_cons]
    cases i with
    | zero => simp at h; subst h; simp
    | succ i =>
      simp at h
      rw [List.nodup_cons] at hd
      have : k ≠ a := fun e => hd.1 (e ▸ List.mem_of_getElem? h)
      have hb : (k == a) = false := by simpa using this
      rw [hb, ih hd.2 h]
      simp; omega

theorem lookup_zipIdx_none {κ : Type} [DecidableEq κ] {names : List κ} {k : κ} {n : Nat} (h : k ∉ names) :
    (names.zipIdx n).lookup k = none := by
  induction names generalizing n with
  | nil => rfl
  | cons a names ih =>
    rw [List.mem_cons, not_or] at h
    have hb : (k == a) = false := by simpa using h.1
    rw [List.zipIdx_cons, List.lookup_cons, hb, ih h.2]

/-- `get_or_create_index`: the index is the position of the key in the (possibly extended) list of keys -/
theorem getOrCreateIndex_spec {κ : Type} [DecidableEq κ] (names : List κ) (hd : names.Nodup) (k : κ) :
    ∃ names' i, getOrCreateIndex names.zipIdx k = (names'.zipIdx, i) ∧ names'.Nodup ∧ names <+: names' ∧
      names'[i]? = some k ∧ (∀ x, x ∈ names' ↔ x ∈ names ∨ x = k) := by
  by_cases h : k ∈ names
  · obtain ⟨i, hi⟩ := List.mem_iff_getElem?.1 h
    refine ⟨names, i, ?_, hd, List.prefix_refl _, hi, fun x => ⟨.inl, fun hx => hx.elim id (fun e => e ▸ h)⟩⟩
    simp [getOrCreateIndex, lookup_zipIdx_of hd hi]
  · refine ⟨names ++ [k], names.length, ?_, ?_, List.prefix_append _ _, by simp, fun x => by simp⟩
    · simp [getOrCreateIndex, lookup_zipIdx_none h, List.zipIdx_append]
    · rw [List.nodup_append]
      exact ⟨hd, by simp, fun a ha b hb e => h (by simp at hb; rw [← hb, ← e]; exact ha)⟩

theorem layerRequests_spec (reqs : List Bytes) (names : List Bytes) (hd : names.Nodup) :
    ∃ names' rs, layerRequests names.zipIdx reqs = (names'.zipIdx, rs) ∧ names'.Nodup ∧ names <+: names' ∧
      rs.length = reqs.length ∧ (∀ (i : Nat) n, reqs[i]? = some n → ∃ k : Nat, rs[i]? = some k ∧ names'[k]? = some n) ∧
      (∀ x, x ∈ names' ↔ x ∈ names ∨ x ∈ reqs) := by
  induction reqs generalizing names with
  | nil => exact ⟨names, [], rfl, hd, List.prefix_refl _, rfl, by simp, by simp⟩
  | cons n ns ih =>
    obtain ⟨n1, k, e1, d1, p1, g1, m1⟩ := getOrCreateIndex_spec names hd n
    obtain ⟨n2, rs, e2, d2, p2, l2, g2, m2⟩ := ih n1 d1
    refine ⟨n2, k :: rs, ?_, d2, p1.trans p2, by simp [l2], ?_, ?_⟩
    · simp [layerRequests, getLayerIdx, e1, e2]
    · intro i x hx
      cases i with
      | zero =>
        simp at hx; subst hx
        exact ⟨k, rfl, by obtain ⟨t, rfl⟩ := p2; rw [List.getElem?_append_left (List.getElem?_eq_some_iff.1 g1).1]; exact g1⟩
      | succ i => simpa using g2 i x (by simpa using hx)
    · intro x; rw [m2, m1]; simp [or_assoc]

theorem fillSorted_spec (names pre : List Bytes) :
    fillSorted (pre ++ List.replicate names.length []) (names.zipIdx pre.length) = .ok (pre ++ names) := by
  induction names generalizing pre with
  | nil => simp [fillSorted]
  | cons a names ih =>
    have h1 : (pre ++ List.replicate (names.length + 1) ([] : Bytes)).set pre.length a = (pre ++ [a]) ++ List.replicate names.length [] := by
      rw [List.set_append_right _ _ (Nat.le_refl _)]; simp [List.replicate_succ]
    simp only [List.zipIdx_cons, List.length_cons, fillSorted]
    rw [if_pos (by simp), h1]
    have := ih (pre ++ [a])
    simpa using this

theorem readStrings_map (names : List Bytes) : readStrings (names.map (.bytes 1 ·)) = .ok names := by
  induction names with
  | nil => rfl
  | cons a names ih => simp [readStrings, ih]

theorem store_load (names : List Bytes) (h : ∀ n ∈ names, n.length < 2 ^ 32) :
    ∃ b, storeLayerNames names.zipIdx = .ok b ∧ loadLayerNames (some b) = .ok names := by
  have h1 := fillSorted_spec names []
  have h2 : decMessage (writeLayerNames names) = .ok (names.map (.bytes 1 ·)) := by
    apply decMessage_enc
    intro f hf
    obtain ⟨n, hn, rfl⟩ := List.mem_map.1 hf
    exact ⟨by decide, h n hn⟩
  refine ⟨writeLayerNames names, ?_, ?_⟩
  · simp only [List.nil_append, List.length_nil] at h1
    simp [storeLayerNames, h1]
  · simp [loadLayerNames, h2, readStrings_map]

/-- For every sequence of requests: two requests get the same index exactly when they ask for the same name, the coastline
layer always is index 0 and nothing else is; storing succeeds, and loading gives at each index the name that got it;
the loaded list holds the coastline and the requested names and nothing else, each once. -/
theorem C25_layer_names (reqs : List Bytes) (hl : ∀ n ∈ reqs, n.length < 2 ^ 32) :
    ∃ rs b names, (layerRequests layerNamesInit reqs).2 = rs ∧ rs.length = reqs.length ∧
      storeLayerNames (layerRequests layerNamesInit reqs).1 = .ok b ∧ loadLayerNames (some b) = .ok names ∧
      names[0]? = some kLayerCoastlineName ∧ names.Nodup ∧ (∀ x, x ∈ names ↔ x = kLayerCoastlineName ∨ x ∈ reqs) ∧
      (∀ (i : Nat) n (k : Nat), reqs[i]? = some n → rs[i]? = some k → names[k]? = some n ∧ (k = 0 ↔ n = kLayerCoastlineName)) ∧
      (∀ (i j : Nat) n m (k l : Nat), reqs[i]? = some n → reqs[j]? = some m → rs[i]? = some k → rs[j]? = some l → (k = l ↔ n = m)) := by
  obtain ⟨names, rs, e, d, p, l, g, m⟩ := layerRequests_spec reqs [kLayerCoastlineName] (by simp)
  have e' : layerRequests layerNamesInit reqs = (names.zipIdx, rs) := e
  obtain ⟨b, hb1, hb2⟩ := store_load names (by
    intro n hn
    rcases (m n).1 hn with h | h
    · simp at h; subst h; decide
    · exact hl n h)
  have h0 : names[0]? = some kLayerCoastlineName := by
    obtain ⟨t, rfl⟩ := p; rfl
  have hg : ∀ (i : Nat) n (k : Nat), reqs[i]? = some n → rs[i]? = some k → names[k]? = some n := by
    intro i n k h1 h2
    obtain ⟨k', h3, h4⟩ := g i n h1
    rw [h2] at h3; injection h3 with h3; rw [h3]; exact h4
  have hinj : ∀ (i j : Nat) n, names[i]? = some n → names[j]? = some n → i = j := by
    intro i j n h1 h2
    have hi := (List.getElem?_eq_some_iff.1 h1).1
    exact (List.getElem?_inj hi d).1 (h1.trans h2.symm)
  refine ⟨rs, b, names, by rw [e'], l, by rw [e']; exact hb1, hb2, h0, d, by simpa using m, ?_, ?_⟩
  · intro i n k h1 h2
    have h3 := hg i n k h1 h2
    refine ⟨h3, ?_, ?_⟩
    · rintro rfl; rw [h0] at h3; injection h3 with h3; exact h3.symm
    · rintro rfl; exact hinj _ _ _ h3 h0
  · intro i j n n' k k' h1 h2 h3 h4
    have h5 := hg i n k h1 h3
    have h6 := hg j n' k' h2 h4
    constructor
    · rintro rfl; rw [h5] at h6; injection h6
    · rintro rfl; exact hinj _ _ _ h5 h6

/-- the name of the first layer -/
theorem C25_coastline_name : kLayerCoastlineName = "coastline".toUTF8.toList := by decide +kernel

/-- a database without stored layer names has exactly the coastline layer -/
theorem C25_nothing_stored : loadLayerNames none = .ok [kLayerCoastlineName] := rfl

/-- hypotheses met: five requests for three names -/
example : (layerRequests layerNamesInit [[114], [115], kLayerCoastlineName, [114], [116]]).2 = [1, 2, 0, 1, 3] := by decide

end Tiles
