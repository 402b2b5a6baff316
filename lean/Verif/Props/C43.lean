import Verif.Props.C20
/-! C43 — the locations written into ways are the nodes' own; nodes without a location stay invalid.

The first pass pushes every node of the file shifted into the unsigned range (`nodePos`); the second pass looks up all node
references of a buffer of ways and shifts the results back.  The shift back is a 32-bit subtraction: with overflow undefined
(`strict`) it is undefined for every node east of 34.7483647°, with wrapping arithmetic it is right for all. -/
namespace Tiles

/-- the index of a file with these nodes (id and location) -/
def fileIndex (nodes : List (Int × XY)) : Res NodeIdx := buildNodeIdx (nodes.map (fun n => (n.1, nodePos n.2)))

/-- the nodes of a valid file: valid locations, ids in order, repeated ids with the same location -/
def Spec.FileOk (nodes : List (Int × XY)) : Prop :=
  (∀ n ∈ nodes, -(2 ^ 63 - 1) < n.1 ∧ n.1 < 2 ^ 63 - 1 ∧ locValid n.2 = true) ∧
  nodes.Pairwise (fun a b => a.1.natAbs ≤ b.1.natAbs ∧ (a.1.natAbs = b.1.natAbs → a.2 = b.2))

/-- what `update_locations` leaves in the locations: it finishes with `l`, and never with anything else -/
def Spec.UpdateResult (n : NodeIdx) (srt : List NodeQuery → List NodeQuery) (strict : Bool) (refs : List Int) (locs l : Nat → XY) : Prop :=
  ∃ k, ∀ fuel, updateLocations n srt strict fuel refs locs = .ok (if fuel < k then none else some l)

theorem locValid_iff {p : XY} : locValid p = true ↔ -1800000000 ≤ p.x ∧ p.x ≤ 1800000000 ∧ -900000000 ≤ p.y ∧ p.y ≤ 900000000 := by
  simp [locValid]

theorem fileNodes_ok {nodes : List (Int × XY)} (h : Spec.FileOk nodes) :
    Spec.NodesOk (nodes.map (fun n => (n.1, nodePos n.2))) ∧
    (∀ n ∈ nodes.map (fun n => (n.1, nodePos n.2)), -(2 ^ 63 - 1) < n.1 ∧ n.1 < 2 ^ 63 - 1) := by
  refine ⟨⟨?_, ?_⟩, ?_⟩
  · intro n hn
    obtain ⟨m, hm, rfl⟩ := List.mem_map.mp hn
    have := locValid_iff.mp (h.1 m hm).2.2
    simp only [nodePos, xOffset, yOffset]
    omega
  · rw [List.pairwise_map]
    exact h.2.imp (fun hab => ⟨hab.1, fun he => by simp only [hab.2 he]⟩)
  · intro n hn
    obtain ⟨m, hm, rfl⟩ := List.mem_map.mp hn
    exact ⟨(h.1 m hm).1, (h.1 m hm).2.1⟩

theorem nodeAt_map (nodes : List (Int × XY)) (f : XY → XY) (id : Int) :
    Spec.nodeAt (nodes.map (fun n => (n.1, f n.2))) id = (Spec.nodeAt nodes id).map f := by
  simp only [Spec.nodeAt, List.find?_map]
  rw [show ((fun n : Int × XY => n.1.natAbs == id.natAbs) ∘ fun n : Int × XY => (n.1, f n.2)) = (fun n => n.1.natAbs == id.natAbs) from rfl]
  cases nodes.find? (fun n => n.1.natAbs == id.natAbs) <;> rfl

theorem nodeAt_mem {nodes : List (Int × XY)} {id : Int} {p : XY} (h : Spec.nodeAt nodes id = some p) : ∃ n ∈ nodes, n.2 = p := by
  simp only [Spec.nodeAt, Option.map_eq_some_iff] at h
  obtain ⟨n, h1, h2⟩ := h
  exact ⟨n, List.mem_of_find?_eq_some h1, h2⟩

theorem shiftBack_other {strict : Bool} {qs : List NodeQuery} {l l' : Nat → XY} (h : shiftBack strict qs l = .ok l') {r : Nat}
    (hr : r ∉ qs.map (·.2)) : l' r = l r := by
  induction qs generalizing l with
  | nil => simp [shiftBack] at h; rw [h]
  | cons q qs ih =>
    simp only [List.map_cons, List.mem_cons, not_or] at hr
    simp only [shiftBack, Res.bind_eq_ok] at h
    obtain ⟨x, _, y, _, h3⟩ := h
    rw [ih h3 hr.2]
    simp [setLoc, hr.1]

theorem shiftBack_wrap (qs : List NodeQuery) (l : Nat → XY) (hnd : (qs.map (·.2)).Nodup) :
    ∃ l', shiftBack false qs l = .ok l' ∧
      ∀ q ∈ qs, l' q.2 = ⟨wrap32 ((l q.2).x - xOffset), wrap32 ((l q.2).y - yOffset)⟩ := by
  induction qs generalizing l with
  | nil => exact ⟨l, rfl, by simp⟩
  | cons a qs ih =>
    simp only [List.map_cons, List.nodup_cons] at hnd
    obtain ⟨l', h1, h2⟩ := ih (setLoc l a.2 ⟨wrap32 ((l a.2).x - xOffset), wrap32 ((l a.2).y - yOffset)⟩) hnd.2
    refine ⟨l', by simp [shiftBack, subI32, h1], ?_⟩
    intro q hq
    rcases List.mem_cons.mp hq with rfl | hq
    · rw [shiftBack_other h1 hnd.1]; simp [setLoc]
    · have hne : q.2 ≠ a.2 := fun he => hnd.1 (he ▸ List.mem_map_of_mem hq)
      rw [h2 q hq]
      simp [setLoc, hne]

theorem shiftBack_strict_ub (qs : List NodeQuery) (l : Nat → XY) (hnd : (qs.map (·.2)).Nodup)
    (h : ∃ q ∈ qs, (l q.2).x - xOffset < -2 ^ 31) : shiftBack true qs l = .ub ∨ shiftBack true qs l = .throw_ := by
  induction qs generalizing l with
  | nil => obtain ⟨q, hq, _⟩ := h; simp at hq
  | cons a qs ih =>
    simp only [List.map_cons, List.nodup_cons] at hnd
    simp only [shiftBack]
    by_cases hx : -2 ^ 31 ≤ (l a.2).x - xOffset ∧ (l a.2).x - xOffset < 2 ^ 31
    · rw [show subI32 true (l a.2).x xOffset = .ok (wrap32 ((l a.2).x - xOffset)) from by
        unfold subI32; rw [if_neg (by simp only [true_and, Decidable.not_not]; exact hx)], Res.ok_bind]
      by_cases hy : -2 ^ 31 ≤ (l a.2).y - yOffset ∧ (l a.2).y - yOffset < 2 ^ 31
      · rw [show subI32 true (l a.2).y yOffset = .ok (wrap32 ((l a.2).y - yOffset)) from by
          unfold subI32; rw [if_neg (by simp only [true_and, Decidable.not_not]; exact hy)], Res.ok_bind]
        refine ih _ hnd.2 ?_
        obtain ⟨q, hq, hlt⟩ := h
        rcases List.mem_cons.mp hq with rfl | hq
        · omega
        · have hne : q.2 ≠ a.2 := fun he => hnd.1 (he ▸ List.mem_map_of_mem hq)
          exact ⟨q, hq, by simpa [setLoc, hne] using hlt⟩
      · left
        rw [show subI32 true (l a.2).y yOffset = .ub from by
          unfold subI32; rw [if_pos (by simp only [true_and]; exact hy)], Res.ub_bind]
    · left
      rw [show subI32 true (l a.2).x xOffset = .ub from by
        unfold subI32; rw [if_pos (by simp only [true_and]; exact hx)], Res.ub_bind]

theorem subI32_ne_throw (strict : Bool) (a b : Int) : subI32 strict a b ≠ .throw_ := by
  unfold subI32; split <;> simp

theorem shiftBack_ne_throw (strict : Bool) (qs : List NodeQuery) (l : Nat → XY) : shiftBack strict qs l ≠ .throw_ := by
  induction qs generalizing l with
  | nil => simp [shiftBack]
  | cons a qs ih =>
    simp only [shiftBack]
    cases h1 : subI32 strict (l a.2).x xOffset with
    | throw_ => exact absurd h1 (subI32_ne_throw _ _ _)
    | ub => simp
    | ok x =>
      rw [Res.ok_bind]
      cases h2 : subI32 strict (l a.2).y yOffset with
      | throw_ => exact absurd h2 (subI32_ne_throw _ _ _)
      | ub => simp
      | ok y => rw [Res.ok_bind]; exact ih _

theorem shiftBack_strict_ok (qs : List NodeQuery) (l : Nat → XY) (hnd : (qs.map (·.2)).Nodup)
    (h : ∀ q ∈ qs, (-2 ^ 31 ≤ (l q.2).x - xOffset ∧ (l q.2).x - xOffset < 2 ^ 31) ∧
      (-2 ^ 31 ≤ (l q.2).y - yOffset ∧ (l q.2).y - yOffset < 2 ^ 31)) :
    shiftBack true qs l = shiftBack false qs l := by
  induction qs generalizing l with
  | nil => rfl
  | cons a qs ih =>
    simp only [List.map_cons, List.nodup_cons] at hnd
    simp only [shiftBack]
    obtain ⟨hx, hy⟩ := h a (by simp)
    have ex : ∀ s, subI32 s (l a.2).x xOffset = .ok (wrap32 ((l a.2).x - xOffset)) := by
      intro s; unfold subI32; rw [if_neg (fun hh => hh.2 hx)]
    have ey : ∀ s, subI32 s (l a.2).y yOffset = .ok (wrap32 ((l a.2).y - yOffset)) := by
      intro s; unfold subI32; rw [if_neg (fun hh => hh.2 hy)]
    rw [ex, ex, ey, ey]
    simp only [Res.ok_bind]
    refine ih _ hnd.2 (fun q hq => ?_)
    have hne : q.2 ≠ a.2 := fun he => hnd.1 (he ▸ List.mem_map_of_mem hq)
    have := h q (by simp [hq])
    simpa [setLoc, hne] using this

theorem queries_refs (refs : List Int) : ((refs.zipIdx : List NodeQuery).map (·.2)) = List.range refs.length := by
  rw [List.range_eq_range']
  exact List.zipIdx_map_snd 0 refs

/-- shifting there and back in wrapping 32-bit arithmetic -/
theorem wrap_back (o : Int) {v : Int} (h1 : -2 ^ 31 ≤ v) (h2 : v < 2 ^ 31) : wrap32 (wrap32 (v + o) - o) = v := by
  unfold wrap32
  omega

/-- the looked-up locations before the shift back -/
theorem update_lookup {nodes : List (Int × XY)} (hf : Spec.FileOk nodes) {n : NodeIdx} (hn : fileIndex nodes = .ok n)
    {srt : List NodeQuery → List NodeQuery} (hsrt : Spec.SortsByAbsId srt) (refs : List Int)
    (hr : ∀ id ∈ refs, -2 ^ 63 < id) (locs : Nat → XY) :
    ∃ k l, (∀ fuel, getCoordsBatch n srt fuel refs.zipIdx locs = .ok (if fuel < k then none else some l)) ∧
      (∀ i id, refs[i]? = some id → l i = match Spec.nodeAt nodes id with
        | some p => ⟨wrap32 (p.x + xOffset), wrap32 (p.y + yOffset)⟩
        | none => locs i) := by
  obtain ⟨hok, hids⟩ := fileNodes_ok hf
  have hnd : ((refs.zipIdx : List NodeQuery).map (·.2)).Nodup := by rw [queries_refs]; exact List.nodup_range
  obtain ⟨l, ⟨k, hk⟩, h2, h3⟩ := C20_batch _ hids n hn srt hsrt refs.zipIdx
    (fun q hq => hr q.1 (by
      obtain ⟨i, hi, e⟩ := List.mem_iff_getElem.mp hq
      simp at e
      rw [← e]
      simp)) hnd locs
  refine ⟨k, l, hk, ?_⟩
  intro i id hid
  have hm : ((id, i) : NodeQuery) ∈ refs.zipIdx := by
    rw [List.mem_zipIdx_iff_getElem?]; simpa using hid
  obtain ⟨o, h4, h5⟩ := h2 (id, i) hm
  obtain ⟨n', g1, _, g3⟩ := C19_lookup _ hids hok
  have : n = n' := by
    have hn' : buildNodeIdx (nodes.map (fun n => (n.1, nodePos n.2))) = .ok n := hn
    rw [g1] at hn'
    injection hn' with e
    exact e.symm
  subst this
  rw [g3 id (hr id (List.mem_of_getElem? hid)), nodeAt_map] at h4
  injection h4 with h4
  subst h4
  simp only at h5
  rw [h5]
  cases Spec.nodeAt nodes id <;> rfl

/-- **with wrapping 32-bit arithmetic: each node reference of the ways gets exactly the location of its node; a reference to a
node that is not in the file (whose location was undefined, as read from the file) ends up with an invalid location; nothing else
is touched** — for every file, every buffer of ways and every order the sort leaves equal ids in -/
theorem C43_locations (nodes : List (Int × XY)) (hf : Spec.FileOk nodes)
    (srt : List NodeQuery → List NodeQuery) (hsrt : Spec.SortsByAbsId srt)
    (refs : List Int) (hr : ∀ id ∈ refs, -2 ^ 63 < id) (locs : Nat → XY) (hl : ∀ i < refs.length, locs i = ⟨2147483647, 2147483647⟩) :
    ∃ n l, fileIndex nodes = .ok n ∧ Spec.UpdateResult n srt false refs locs l ∧
      (∀ i id, refs[i]? = some id → match Spec.nodeAt nodes id with
        | some loc => l i = loc
        | none => locValid (l i) = false) ∧
      (∀ r, refs.length ≤ r → l r = locs r) := by
  obtain ⟨hok, hids⟩ := fileNodes_ok hf
  obtain ⟨n, hn, _, _⟩ := C19_lookup _ hids hok
  have hn' : fileIndex nodes = .ok n := hn
  by_cases hempty : refs = []
  · subst hempty
    exact ⟨n, locs, hn', ⟨0, fun fuel => by simp [updateLocations]⟩, by simp, fun _ _ => rfl⟩
  · obtain ⟨k, l0, hk, h2⟩ := update_lookup hf hn' hsrt refs hr locs
    have hnd : ((refs.zipIdx : List NodeQuery).map (·.2)).Nodup := by rw [queries_refs]; exact List.nodup_range
    obtain ⟨hp, _⟩ := hsrt refs.zipIdx
    have hnd' : ((srt refs.zipIdx).map (·.2)).Nodup := (hp.map _).nodup_iff.mpr hnd
    obtain ⟨l, h3, h4⟩ := shiftBack_wrap (srt refs.zipIdx) l0 hnd'
    have hother : ∀ r, refs.length ≤ r → r ∉ (refs.zipIdx : List NodeQuery).map (·.2) := by
      intro r hr hm
      rw [queries_refs, List.mem_range] at hm
      omega
    refine ⟨n, l, hn', ⟨k, fun fuel => ?_⟩, ?_, ?_⟩
    · unfold updateLocations
      have : (refs.zipIdx : List NodeQuery).isEmpty = false := by
        cases refs with
        | nil => exact absurd rfl hempty
        | cons a r => rfl
      dsimp only
      rw [this]
      simp only [Bool.false_eq_true, if_false]
      rw [hk fuel, Res.ok_bind]
      by_cases hfk : fuel < k
      · rw [if_pos hfk, if_pos hfk]; rfl
      · rw [if_neg hfk, if_neg hfk]
        dsimp only
        rw [h3, Res.ok_bind]
        rfl
    · intro i id hid
      have hm : ((id, i) : NodeQuery) ∈ srt refs.zipIdx := by
        rw [hp.mem_iff, List.mem_zipIdx_iff_getElem?]; simpa using hid
      have e1 := h4 _ hm
      simp only at e1
      have e2 := h2 i id hid
      have hi : i < refs.length := (List.getElem?_eq_some_iff.mp hid).1
      cases hat : Spec.nodeAt nodes id with
      | some loc =>
        rw [hat] at e2
        dsimp only at e2 ⊢
        rw [e1, e2]
        obtain ⟨m, hm, rfl⟩ := nodeAt_mem hat
        have hv := locValid_iff.mp (hf.1 m hm).2.2
        rw [wrap_back xOffset (by omega) (by omega), wrap_back yOffset (by omega) (by omega)]
      | none =>
        rw [hat] at e2
        dsimp only at e2 ⊢
        rw [e1, e2, hl i hi]
        decide
    · intro r hr'
      have h5 : r ∉ (srt refs.zipIdx).map (·.2) := fun hm => hother r hr' ((hp.map _).mem_iff.mp hm)
      rw [shiftBack_other h3 h5]
      obtain ⟨l', ⟨k', hk'⟩, _, g3⟩ := C20_batch _ hids n hn srt hsrt refs.zipIdx
        (fun q hq => hr q.1 (by
          obtain ⟨i, hi, e⟩ := List.mem_iff_getElem.mp hq
          simp at e
          rw [← e]
          simp)) hnd locs
      have : l' = l0 := by
        have a1 := hk (k + k')
        rw [hk' (k + k'), if_neg (by omega), if_neg (by omega)] at a1
        injection a1 with a1
        injection a1
      rw [← this]
      exact g3 r (hother r hr')

/-- **with overflow undefined, as the standard has it: the update is undefined as soon as one way references a node of the file
east of 34.7483647°, and otherwise does the same** -/
theorem C43_overflow (nodes : List (Int × XY)) (hf : Spec.FileOk nodes) (n : NodeIdx) (hn : fileIndex nodes = .ok n)
    (srt : List NodeQuery → List NodeQuery) (hsrt : Spec.SortsByAbsId srt)
    (refs : List Int) (hr : ∀ id ∈ refs, -2 ^ 63 < id) (locs : Nat → XY) (hl : ∀ i < refs.length, locs i = ⟨2147483647, 2147483647⟩) :
    ((∃ id ∈ refs, ∃ loc, Spec.nodeAt nodes id = some loc ∧ 347483647 < loc.x) →
      ∃ k, ∀ fuel, k ≤ fuel → updateLocations n srt true fuel refs locs = .ub) ∧
    ((∀ id ∈ refs, ∀ loc, Spec.nodeAt nodes id = some loc → loc.x ≤ 347483647) →
      ∀ fuel, updateLocations n srt true fuel refs locs = updateLocations n srt false fuel refs locs) := by
  obtain ⟨k, l0, hk, h2⟩ := update_lookup hf hn hsrt refs hr locs
  have hnd : ((refs.zipIdx : List NodeQuery).map (·.2)).Nodup := by rw [queries_refs]; exact List.nodup_range
  obtain ⟨hp, _⟩ := hsrt refs.zipIdx
  have hnd' : ((srt refs.zipIdx).map (·.2)).Nodup := (hp.map _).nodup_iff.mpr hnd
  constructor
  · rintro ⟨id, hid, loc, hat, hgt⟩
    obtain ⟨i, hi, e⟩ := List.getElem_of_mem hid
    have hid' : refs[i]? = some id := by rw [List.getElem?_eq_getElem hi, e]
    refine ⟨k, fun fuel hfk => ?_⟩
    unfold updateLocations
    have : (refs.zipIdx : List NodeQuery).isEmpty = false := by
      cases refs with
      | nil => simp at hid
      | cons a r => rfl
    dsimp only
    rw [this]
    simp only [Bool.false_eq_true, if_false]
    rw [hk fuel, Res.ok_bind, if_neg (by omega)]
    dsimp only
    have hm : ((id, i) : NodeQuery) ∈ srt refs.zipIdx := by
      rw [hp.mem_iff, List.mem_zipIdx_iff_getElem?]; simpa using hid'
    have e2 := h2 i id hid'
    rw [hat] at e2
    dsimp only at e2
    obtain ⟨m, hmm, rfl⟩ := nodeAt_mem hat
    have hv := locValid_iff.mp (hf.1 m hmm).2.2
    rcases shiftBack_strict_ub (srt refs.zipIdx) l0 hnd' ⟨(id, i), hm, by
        dsimp only
        rw [e2]
        simp only [wrap32, xOffset]
        omega⟩ with h | h
    · rw [h, Res.ub_bind]
    · exact absurd h (shiftBack_ne_throw _ _ _)
  · intro hle fuel
    unfold updateLocations
    dsimp only
    rw [hk fuel]
    simp only [Res.ok_bind]
    by_cases hfk : fuel < k
    · rw [if_pos hfk]
    · rw [if_neg hfk]
      dsimp only
      rw [shiftBack_strict_ok (srt refs.zipIdx) l0 hnd']
      intro q hq
      have hq' := hp.mem_iff.mp hq
      rw [List.mem_zipIdx_iff_getElem?] at hq'
      have e2 := h2 q.2 q.1 (by simpa using hq')
      have hi : q.2 < refs.length := (List.getElem?_eq_some_iff.mp (by simpa using hq' : refs[q.2]? = some q.1)).1
      cases hat : Spec.nodeAt nodes q.1 with
      | some loc =>
        rw [hat] at e2
        dsimp only at e2
        rw [e2]
        have hx := hle q.1 (List.mem_of_getElem? (by simpa using hq' : refs[q.2]? = some q.1)) loc hat
        obtain ⟨m, hmm, rfl⟩ := nodeAt_mem hat
        have hv := locValid_iff.mp (hf.1 m hmm).2.2
        simp only [wrap32, xOffset, yOffset]
        omega
      | none =>
        rw [hat] at e2
        dsimp only at e2
        rw [e2, hl q.2 hi]
        decide

/-- non-vacuous: Frankfurt, Tokyo (far enough east for the overflow), and a reference to an absent node -/
def exampleFile : List (Int × XY) := [(7, ⟨86821267, 501109221⟩), (8, ⟨1396917100, 356894870⟩), (3000, ⟨-740060000, 407128000⟩)]

example : Spec.FileOk exampleFile ∧ (∀ id ∈ [8, 9, -7, 3000], (-2 ^ 63 : Int) < id) ∧
    Spec.nodeAt exampleFile 8 = some ⟨1396917100, 356894870⟩ ∧ Spec.nodeAt exampleFile 9 = none := by
  refine ⟨⟨by decide, by decide⟩, by decide, by decide, by decide⟩

end Tiles
