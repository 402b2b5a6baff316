import Verif.Props.C43
import Verif.Props.C71
import Verif.Spec.OsmFile
/-! C72 — from the OSM file: what the handlers get of it, and what a client then sees. -/
namespace Tiles
open Spec

section
variable {R L : Type}

theorem bufferNodes_eq (b : List (OsmEntity R)) : bufferNodes b = b.filterMap (fun o => match o with | .node id _ loc => some (id, loc) | _ => none) := by
  induction b with
  | nil => rfl
  | cons o b ih => cases o <;> simp [bufferNodes, ih]

theorem passOne_eq (file : List (List (OsmEntity R))) : passOne file = fileIndex (nodesIn file) := by
  rw [passOne, bufferNodes_eq]; rfl

theorem good_fileOk {file : List (List (OsmEntity R))} (h : GoodFile file) : FileOk (nodesIn file) := ⟨h.nodes, h.sorted⟩

theorem bufferRefs_mem {b : List (OsmEntity R)} {r : Int} (h : r ∈ bufferRefs b) : ∃ id tags rs, OsmEntity.way id tags rs ∈ b ∧ r ∈ rs := by
  induction b with
  | nil => cases h
  | cons o b ih =>
    cases o with
    | node id tags loc => obtain ⟨i, t, rs, h1, h2⟩ := ih h; exact ⟨i, t, rs, .tail _ h1, h2⟩
    | relation r => obtain ⟨i, t, rs, h1, h2⟩ := ih h; exact ⟨i, t, rs, .tail _ h1, h2⟩
    | way id tags refs =>
      rcases List.mem_append.1 h with h | h
      · exact ⟨id, tags, refs, .head _, h⟩
      · obtain ⟨i, t, rs, h1, h2⟩ := ih h; exact ⟨i, t, rs, .tail _ h1, h2⟩

/-- the places land in the ways they belong to -/
theorem put_places {nodes : List (Int × XY)} {l : Nat → XY} (b : List (OsmEntity R)) (i : Nat) (hv : ∀ id tags loc, OsmEntity.node id tags loc ∈ b → locValid loc = true)
    (hl : ∀ j id, (bufferRefs b)[j]? = some id → validLoc (l (i + j)) = nodeAt nodes id) : putLocations l i b = b.map (withPlaces nodes) := by
  induction b generalizing i with
  | nil => rfl
  | cons o b ih =>
    cases o with
    | node id tags loc =>
      rw [putLocations, List.map_cons, withPlaces, validLoc, if_pos (hv id tags loc (.head _)), ih i (fun _ _ _ h => hv _ _ _ (.tail _ h)) hl]
    | relation r => rw [putLocations, List.map_cons, withPlaces, ih i (fun _ _ _ h => hv _ _ _ (.tail _ h)) hl]
    | way id tags refs =>
      rw [putLocations, List.map_cons, withPlaces, ih (i + refs.length) (fun _ _ _ h => hv _ _ _ (.tail _ h)) (fun j id hj => ?_)]
      · congr 2
        refine List.ext_getElem? (fun j => ?_)
        rw [List.getElem?_map, List.getElem?_map, List.getElem?_zipIdx]
        cases hj : refs[j]? with
        | none => rfl
        | some r =>
          have hlt : j < refs.length := (List.getElem?_eq_some_iff.1 hj).1
          have := hl j r (by rw [bufferRefs, List.getElem?_append_left hlt]; exact hj)
          simp only [Option.map_some]
          rw [this]
      · have := hl (refs.length + j) id (by rw [bufferRefs, List.getElem?_append_right (by omega)]; simpa using hj)
        rw [← this]
        congr 2
        omega

/-- `update_locations` puts the places of the file into a buffer -/
theorem locate_places {file : List (List (OsmEntity R))} (hf : GoodFile file) {n : NodeIdx} (hn : passOne file = .ok n) {srt : List NodeQuery → List NodeQuery} (hsrt : SortsByAbsId srt)
    (strict : Bool) (hwrap : strict = true → ∀ m ∈ nodesIn file, m.2.x ≤ 347483647) {b : List (OsmEntity R)} (hb : b ∈ file) :
    ∃ k, ∀ fuel, locateBuffer n srt strict fuel b = .ok (if fuel < k then none else some (b.map (withPlaces (nodesIn file)))) := by
  rw [passOne_eq] at hn
  have hr : ∀ id ∈ bufferRefs b, -2 ^ 63 < id := by
    intro r hr
    obtain ⟨id, tags, rs, h1, h2⟩ := bufferRefs_mem hr
    exact (hf.ways id tags rs (List.mem_flatten.2 ⟨b, hb, h1⟩)).2.2 r h2
  obtain ⟨n', l, h1, ⟨k, h2⟩, h3, _⟩ := C43_locations _ (good_fileOk hf) srt hsrt (bufferRefs b) hr (fun _ => undefinedLoc) (fun _ _ => rfl)
  rw [hn] at h1
  injection h1 with h1
  subst h1
  have h2' : ∀ fuel, updateLocations n srt strict fuel (bufferRefs b) (fun _ => undefinedLoc) = .ok (if fuel < k then none else some l) := by
    intro fuel
    cases strict with
    | false => exact h2 fuel
    | true =>
      rw [(C43_overflow _ (good_fileOk hf) n hn srt hsrt (bufferRefs b) hr (fun _ => undefinedLoc) (fun _ _ => rfl)).2 (fun id _ loc hat => ?_) fuel]
      · exact h2 fuel
      · obtain ⟨m, h4, h5⟩ := nodeAt_mem hat
        rw [← h5]; exact hwrap rfl m h4
  refine ⟨k, fun fuel => ?_⟩
  rw [locateBuffer, h2' fuel, Res.ok_bind]
  by_cases hk : fuel < k
  · simp [hk]
  · rw [if_neg hk, if_neg hk]
    dsimp only
    rw [Res.pure_eq, put_places b 0 ?_ ?_]
    · intro id tags loc h
      refine (hf.nodes (id, loc) (List.mem_filterMap.2 ⟨_, List.mem_flatten.2 ⟨b, hb, h⟩, rfl⟩)).2.2
    · intro j id hj
      have := h3 j id hj
      rw [Nat.zero_add]
      cases hat : nodeAt (nodesIn file) id with
      | none => rw [hat] at this; dsimp only at this; rw [validLoc, if_neg (by simp [this])]
      | some loc =>
        rw [hat] at this; dsimp only at this
        obtain ⟨m, h4, h5⟩ := nodeAt_mem hat
        rw [this, validLoc, if_pos (by rw [← h5]; exact (hf.nodes m h4).2.2)]

theorem items_places (deg : XY → L) (nodes : List (Int × XY)) (b : List (OsmEntity R)) : bufferItems deg (b.map (withPlaces nodes)) = b.filterMap (itemOf deg nodes) := by
  induction b with
  | nil => rfl
  | cons o b ih =>
    cases o with
    | node id tags loc => simp [bufferItems, withPlaces, itemOf, ih]
    | way id tags refs => simp [bufferItems, withPlaces, itemOf, ih]
    | relation r => rw [List.map_cons, withPlaces, bufferItems, ih, List.filterMap_cons_none rfl]

theorem give_perm (got : List (List (OsmItem L))) (i : Nat) (hi : i < got.length) (os : List (OsmItem L)) : (giveTo got i os).flatten.Perm (got.flatten ++ os) := by
  induction got generalizing i with
  | nil => cases hi
  | cons g got ih =>
    cases i with
    | zero =>
      simp only [giveTo, List.modify_zero_cons, List.flatten_cons, List.append_assoc]
      exact List.Perm.append_left _ List.perm_append_comm
    | succ i =>
      have := ih i (by simpa using hi)
      simp only [giveTo, List.modify_succ_cons, List.flatten_cons, List.append_assoc] at this ⊢
      exact this.append_left _

theorem give_length (got : List (List (OsmItem L))) (i : Nat) (os : List (OsmItem L)) : (giveTo got i os).length = got.length := by simp [giveTo]

theorem areas_concat (asm : List (List (LocatedEntity R)) → List (LocatedEntity R) → List (OsmItem L)) (before bs : List (List (LocatedEntity R))) (b : List (LocatedEntity R)) :
    areasOf asm before (bs ++ [b]) = areasOf asm before bs ++ asm (before ++ bs) b := by
  induction bs generalizing before with
  | nil => simp [areasOf]
  | cons a bs ih => rw [List.cons_append, areasOf, areasOf, ih]; simp

/-- what holds throughout the second pass -/
structure PipeInv (deg : XY → L) (asm : List (List (LocatedEntity R)) → List (LocatedEntity R) → List (OsmItem L)) (file : List (List (OsmEntity R))) (threads : Nat) (s : PipeState R L) : Prop where
  waiting : ∀ x ∈ s.unread ++ s.ready, file[x.1]? = some x.2
  located : ∀ x ∈ s.located, ∃ b, file[x.1]? = some b ∧ x.2 = b.map (withPlaces (nodesIn file))
  assembled : s.assembled = (file.take s.assembled.length).map (List.map (withPlaces (nodesIn file)))
  count : (s.unread.map (·.1) ++ s.ready.map (·.1) ++ s.located.map (·.1) ++ List.range s.assembled.length).Perm (List.range file.length)
  got : s.got.flatten.Perm ((s.located.map (·.2)).flatMap (bufferItems deg) ++ s.assembled.flatMap (bufferItems deg) ++ areasOf asm [] s.assembled)
  threads : s.got.length = threads

variable {n : NodeIdx} {srt : List NodeQuery → List NodeQuery} {strict : Bool} {deg : XY → L} {asm : List (List (LocatedEntity R)) → List (LocatedEntity R) → List (OsmItem L)}
  {file : List (List (OsmEntity R))} {threads : Nat}

theorem pipe_init : PipeInv deg asm file threads (pipeInit threads file) := by
  refine ⟨?_, by simp [pipeInit], by simp [pipeInit], ?_, by simp [pipeInit, areasOf], by simp [pipeInit]⟩
  · intro x hx
    simp only [pipeInit, List.append_nil, List.mem_map] at hx
    obtain ⟨y, h1, rfl⟩ := hx
    have := List.mem_zipIdx_iff_getElem?.1 h1
    simpa using this
  · simp only [pipeInit, List.map_map, List.map_nil, List.append_nil, List.length_nil, List.range_zero]
    rw [show ((fun x : Nat × List (OsmEntity R) => x.1) ∘ fun b : List (OsmEntity R) × Nat => (b.2, b.1)) = (fun b => b.2) from rfl]
    rw [List.zipIdx_map_snd, ← List.range_eq_range']

theorem pipe_step (hf : GoodFile file) (hn : passOne file = .ok n) (hsrt : SortsByAbsId srt) (hwrap : strict = true → ∀ m ∈ nodesIn file, m.2.x ≤ 347483647)
    {s s' : PipeState R L} (hi : PipeInv deg asm file threads s) (h : PipeStep n srt strict deg asm s s') : PipeInv deg asm file threads s' := by
  cases h with
  | read b rest h1 =>
    refine ⟨?_, hi.located, hi.assembled, ?_, hi.got, hi.threads⟩
    · intro x hx
      refine hi.waiting x ?_
      rw [h1]
      simp only [List.mem_append, List.mem_cons, List.mem_singleton, List.not_mem_nil, or_false] at hx ⊢
      tauto
    · refine List.Perm.trans ?_ hi.count
      rw [h1]
      simp only [List.map_append, List.map_cons, List.map_nil, List.append_assoc, List.cons_append, List.nil_append]
      rw [List.perm_iff_count]
      intro a
      simp only [List.count_append, List.count_cons]
      omega
  | handle r1 r2 k b l i fuel h1 h2 h3 =>
    have hb : file[k]? = some b := hi.waiting (k, b) (by rw [h1]; simp)
    obtain ⟨K, hK⟩ := locate_places hf hn hsrt strict hwrap (List.mem_of_getElem? hb)
    have hl : l = b.map (withPlaces (nodesIn file)) := by
      rw [hK fuel] at h3
      injection h3 with h3
      split at h3
      · cases h3
      · injection h3 with h3; exact h3.symm
    refine ⟨?_, ?_, hi.assembled, ?_, ?_, by rw [give_length]; exact hi.threads⟩
    · intro x hx
      refine hi.waiting x ?_
      rw [h1]
      simp only [List.mem_append, List.mem_cons] at hx ⊢
      tauto
    · intro x hx
      rcases List.mem_append.1 hx with hx | hx
      · exact hi.located x hx
      · rw [List.mem_singleton] at hx; subst hx; exact ⟨b, hb, hl⟩
    · refine List.Perm.trans ?_ hi.count
      rw [h1]
      simp only [List.map_append, List.map_cons, List.map_nil, List.append_assoc, List.cons_append, List.nil_append]
      rw [List.perm_iff_count]
      intro a
      simp only [List.count_append, List.count_cons]
      omega
    · refine (give_perm _ _ h2 _).trans ?_
      refine (hi.got.append_right _).trans ?_
      simp only [List.map_append, List.map_cons, List.map_nil, List.flatMap_append, List.flatMap_cons, List.flatMap_nil, List.append_nil, List.append_assoc]
      refine List.Perm.append_left _ ?_
      rw [← List.append_assoc]
      exact List.perm_append_comm
  | areas r1 r2 k l i h1 h2 h3 =>
    obtain ⟨b, hb, hl⟩ := hi.located (k, l) (by rw [h1]; simp)
    dsimp only at hb hl
    refine ⟨hi.waiting, ?_, ?_, ?_, ?_, by rw [give_length]; exact hi.threads⟩
    · intro x hx
      refine hi.located x ?_
      rw [h1]
      simp only [List.mem_append, List.mem_cons] at hx ⊢
      tauto
    · rw [List.length_append, List.length_singleton, List.take_add_one, ← h2, hb, List.map_append, h2, ← hi.assembled]
      simp [hl]
    · refine List.Perm.trans ?_ hi.count
      rw [h1]
      simp only [List.map_append, List.map_cons, List.map_nil, List.append_assoc, List.cons_append, List.length_append, List.length_singleton, List.range_succ, ← h2]
      refine List.Perm.append_left _ (List.Perm.append_left _ (List.Perm.append_left _ ?_))
      rw [← List.append_assoc]
      exact List.perm_append_comm.trans (by simp)
    · refine (give_perm _ _ h3 _).trans ?_
      refine (hi.got.append_right _).trans ?_
      rw [h1, areas_concat]
      simp only [List.map_append, List.map_cons, List.map_nil, List.flatMap_append, List.flatMap_cons, List.flatMap_nil, List.append_nil, List.append_assoc, List.nil_append]
      refine List.Perm.append_left _ ?_
      have hp : ∀ (a b c d e : List (OsmItem L)), (a ++ (b ++ (c ++ (d ++ e)))).Perm (b ++ (c ++ (a ++ (d ++ e)))) := by
        intro a b c d e
        rw [← List.append_assoc b c, ← List.append_assoc b c, ← List.append_assoc a, ← List.append_assoc (b ++ c) a]
        exact List.perm_append_comm.append_right _
      exact hp _ _ _ _ _
/-! ### the second pass -/

theorem pipe_inv (hf : GoodFile file) (hn : passOne file = .ok n) (hsrt : SortsByAbsId srt) (hwrap : strict = true → ∀ m ∈ nodesIn file, m.2.x ≤ 347483647)
    {s : PipeState R L} (h : Reach (PipeStep n srt strict deg asm) (pipeInit threads file) s) : PipeInv deg asm file threads s := by
  induction h with
  | refl => exact pipe_init
  | step _ r ih => exact pipe_step hf hn hsrt hwrap ih r

/-- what is left to do -/
def pipeLeft (s : PipeState R L) : Nat := 3 * s.unread.length + 2 * s.ready.length + s.located.length

theorem pipe_can_end (hf : GoodFile file) (hn : passOne file = .ok n) (hsrt : SortsByAbsId srt) (hwrap : strict = true → ∀ m ∈ nodesIn file, m.2.x ≤ 347483647) (ht : 0 < threads)
    (s : PipeState R L) (h : PipeInv deg asm file threads s) : ∃ s', Reach (PipeStep n srt strict deg asm) s s' ∧ s'.Ended := by
  induction hk : pipeLeft s using Nat.strong_induction_on generalizing s with
  | _ k ih =>
    have next : ∀ s', PipeStep n srt strict deg asm s s' → pipeLeft s' < k → ∃ s'', Reach (PipeStep n srt strict deg asm) s s'' ∧ s''.Ended := by
      intro s' hst hlt
      obtain ⟨s'', h1, h2⟩ := ih _ hlt s' (pipe_step hf hn hsrt hwrap h hst) rfl
      exact ⟨s'', reach_trans (.step .refl hst) h1, h2⟩
    cases hu : s.unread with
    | cons b rest =>
      refine next _ (.read s b rest hu) ?_
      rw [← hk]
      simp only [pipeLeft, hu, List.length_cons, List.length_append, List.length_nil]
      omega
    | nil =>
      cases hr : s.ready with
      | cons x rest =>
        obtain ⟨j, b⟩ := x
        have hb : file[j]? = some b := h.waiting (j, b) (by rw [hr]; simp)
        obtain ⟨K, hK⟩ := locate_places hf hn hsrt strict hwrap (List.mem_of_getElem? hb)
        refine next _ (.handle s [] rest j b _ 0 K hr (by rw [h.threads]; exact ht) (by rw [hK K, if_neg (Nat.lt_irrefl K)])) ?_
        rw [← hk]
        simp only [pipeLeft, hr, List.length_cons, List.length_append, List.length_nil, List.nil_append]
        omega
      | nil =>
        by_cases hl : s.located = []
        · exact ⟨s, .refl, hu, hr, hl⟩
        · have hc := h.count
          rw [hu, hr] at hc
          simp only [List.map_nil, List.nil_append] at hc
          have hlen := hc.length_eq
          simp only [List.length_append, List.length_map, List.length_range] at hlen
          have hpos : 0 < s.located.length := List.length_pos_iff.2 hl
          have hm : s.assembled.length ∈ s.located.map (·.1) ++ List.range s.assembled.length := hc.mem_iff.2 (List.mem_range.2 (by omega))
          rcases List.mem_append.1 hm with hm | hm
          · obtain ⟨⟨j, l⟩, h1, h2⟩ := List.mem_map.1 hm
            obtain ⟨r1, r2, h3⟩ := List.append_of_mem h1
            refine next _ (.areas s r1 r2 j l 0 h3 h2 (by rw [h.threads]; exact ht)) ?_
            rw [← hk]
            simp only [pipeLeft, h3, List.length_cons, List.length_append]
            omega
          · simp at hm

/-- The handlers of the threads get, together, exactly the objects of the file: every node and every way once, the nodes of a way at the places that the file gives to
their ids, and the areas that the assembler makes of the buffers in the order of the file: for any file whose nodes are sorted, any division into buffers, any number of
threads and every order in which the threads do their work. -/
theorem C72_objects (file : List (List (OsmEntity R))) (hf : GoodFile file) (srt : List NodeQuery → List NodeQuery) (hsrt : SortsByAbsId srt) (strict : Bool)
    (hwrap : strict = true → ∀ m ∈ nodesIn file, m.2.x ≤ 347483647) (deg : XY → L) (asm : List (List (LocatedEntity R)) → List (LocatedEntity R) → List (OsmItem L)) (threads : Nat) :
    ∃ n, passOne file = .ok n ∧ ∀ s, Reach (PipeStep n srt strict deg asm) (pipeInit threads file) s → s.Ended → s.got.flatten.Perm (fileItems deg asm file) := by
  obtain ⟨n, _, hn, _⟩ := C43_locations _ (good_fileOk hf) srt hsrt [] (by simp) (fun _ => undefinedLoc) (by simp)
  rw [← passOne_eq] at hn
  refine ⟨n, hn, fun s hs he => ?_⟩
  have hi := pipe_inv hf hn hsrt hwrap hs
  obtain ⟨h1, h2, h3⟩ := he
  have hc := hi.count.length_eq
  rw [h1, h2, h3] at hc
  simp only [List.map_nil, List.nil_append, List.length_range] at hc
  have ha : s.assembled = file.map (List.map (withPlaces (nodesIn file))) := by
    rw [hi.assembled, hc, List.take_length]
  have hg := hi.got
  rw [h3, ha] at hg
  simp only [List.map_nil, List.flatMap_nil, List.nil_append] at hg
  refine hg.trans ?_
  rw [fileItems]
  refine List.Perm.append_right _ ?_
  rw [List.flatMap_map, List.filterMap_flatten, List.flatMap_def, List.map_congr_left (fun b _ => items_places deg (nodesIn file) b)]

/-- Nothing in such a file stops the second pass: whatever happened so far, it can come to its end. -/
theorem C72_can_end (file : List (List (OsmEntity R))) (hf : GoodFile file) (srt : List NodeQuery → List NodeQuery) (hsrt : SortsByAbsId srt) (strict : Bool)
    (hwrap : strict = true → ∀ m ∈ nodesIn file, m.2.x ≤ 347483647) (deg : XY → L) (asm : List (List (LocatedEntity R)) → List (LocatedEntity R) → List (OsmItem L)) (threads : Nat)
    (ht : 0 < threads) (n : NodeIdx) (hn : passOne file = .ok n) (s : PipeState R L) (hs : Reach (PipeStep n srt strict deg asm) (pipeInit threads file) s) :
    ∃ s', Reach (PipeStep n srt strict deg asm) s s' ∧ s'.Ended :=
  pipe_can_end hf hn hsrt hwrap ht s (pipe_inv hf hn hsrt hwrap hs)

/-- A file whose nodes are not sorted, or that has two places for a node, is refused before anything is imported. -/
theorem C72_refused (file : List (List (OsmEntity R))) (hids : ∀ n ∈ nodesIn file, -(2 ^ 63 - 1) < n.1 ∧ n.1 < 2 ^ 63 - 1)
    (h : ¬ (nodesIn file).Pairwise (fun a b => a.1.natAbs ≤ b.1.natAbs ∧ (a.1.natAbs = b.1.natAbs → a.2 = b.2))) : passOne file = .throw_ := by
  rw [passOne_eq]
  refine C19_refused _ (fun m hm => ?_) (fun hok => h ?_)
  · obtain ⟨k, hk, rfl⟩ := List.mem_map.1 hm
    exact hids k hk
  · have := hok.2
    rw [List.pairwise_map] at this
    refine this.imp (fun {a b} hab => ⟨hab.1, fun he => ?_⟩)
    obtain ⟨i, x, y⟩ := a
    obtain ⟨j, x', y'⟩ := b
    have := hab.2 he
    simp only [nodePos, XY.mk.injEq] at this ⊢
    omega
end

/-! ### the import of a file -/

section
variable {R : Type} {asm : List (List (LocatedEntity R)) → List (LocatedEntity R) → List (OsmItem LatLng)} {file : List (List (OsmEntity R))} {srt : List NodeQuery → List NodeQuery}
  {strict : Bool} {threads : Nat}

theorem mem_fileData {d : Datum} : d ∈ fileData asm file ↔ FromFile asm file d := by
  rw [fileData, List.mem_map]
  constructor
  · rintro ⟨o, h, rfl⟩
    rcases List.mem_append.1 h with h | h
    · obtain ⟨x, h1, h2⟩ := List.mem_filterMap.1 h
      cases x with
      | node id tags loc => cases h2; exact .node id tags loc h1
      | way id tags refs => cases h2; exact .way id tags refs h1
      | relation r => cases h2
    · exact .area o h
  · rintro (⟨id, tags, loc, h⟩ | ⟨id, tags, refs, h⟩ | ⟨o, h⟩)
    · exact ⟨⟨id, tags, .node (some (degrees loc))⟩, List.mem_append_left _ (List.mem_filterMap.2 ⟨_, h, rfl⟩), rfl⟩
    · exact ⟨⟨id, tags, .way (refs.map (fun r => (nodeAt (nodesIn file) r).map degrees))⟩, List.mem_append_left _ (List.mem_filterMap.2 ⟨_, h, rfl⟩), rfl⟩
    · exact ⟨o, List.mem_append_right _ h, rfl⟩

/-- the handlers get the data of the file -/
theorem C72_loads (hf : GoodFile file) (hsrt : SortsByAbsId srt) (hwrap : strict = true → ∀ m ∈ nodesIn file, m.2.x ≤ 347483647) {ctx : ProfileCtx LatLng} {p : LuaProfile}
    {numeral : Bytes → Option Int} {fs : List (List Feature)} {m : MetaTable} (h : FileLoads ctx p numeral srt strict threads asm file fs m) :
    OsmLoads ctx p numeral (fileData asm file) fs m := by
  obtain ⟨n, pipe, h1, h2, h3, s, names, coding, h4, h5⟩ := h
  obtain ⟨n', h6, h7⟩ := C72_objects file hf srt hsrt strict hwrap degrees asm threads
  rw [h1] at h6
  injection h6 with h6
  subst h6
  refine ⟨_, s, names, coding, ?_, h4, h5⟩
  rw [fileData, List.map_map, ← List.map_flatten]
  exact (h7 pipe h2 h3).map _

/-- the import of this file, without coastlines -/
noncomputable def Spec.OsmSetting.fileEnv (S : OsmSetting) (srt : List NodeQuery → List NodeQuery) (strict : Bool) (threads : Nat) (asm : List (List (LocatedEntity R)) → List (LocatedEntity R) → List (OsmItem LatLng))
    (file : List (List (OsmEntity R))) : ImportEnv MetaTable :=
  { S.env [] with loads := fun coast osm xs m => coast = false ∧ osm = true ∧ ∃ fs, xs = fs.map (List.map whole) ∧ FileLoads S.prof S.profile S.numeral srt strict threads asm file fs m }

theorem file_imports {S : OsmSetting} (hf : GoodFile file) (hsrt : SortsByAbsId srt) (hwrap : strict = true → ∀ m ∈ nodesIn file, m.2.x ≤ 347483647) {runs : List (List String)}
    {a b : TileDb MetaTable} (h : Imports (importParts (S.fileEnv srt strict threads asm file)) runs a b) : Imports (importParts (S.env (fileData asm file))) runs a b := by
  induction runs generalizing a with
  | nil => exact h
  | cons tasks runs ih =>
    obtain ⟨c, h1, h2⟩ := h
    refine ⟨c, loads_mono (loads := (S.env (fileData asm file)).loads) ?_ h1, ih h2⟩
    rintro c o xs m ⟨h3, h4, fs, h5, h6⟩
    exact ⟨h3, h4, fs, h5, C72_loads hf hsrt hwrap h6⟩

variable {S : OsmSetting} {t : Tables} {e : Int} {g : ℝ} {τ : ℝ}

/-- The import of such a file can end with exit code 0, on top of any database, if memory and file sizes suffice. -/
theorem C72_completes (hf : GoodFile file) (hsrt : SortsByAbsId srt) (hwrap : strict = true → ∀ m ∈ nodesIn file, m.2.x ≤ 347483647) (ht : 0 < threads)
    (hS : S.Ok t e g) (hD : S.Fits (fileData asm file)) (tasks : List String) (hf' : Asked tasks "features") (hp : Asked tasks "pack") (ht' : Asked tasks "tiles")
    (hc : ¬ Asked tasks "coastlines") (hbatch : 0 < S.batch) (hmem : S.mem < 2 ^ 62)
    (hsome : ∃ d, FromFile asm file d ∧ ∃ r gm, d.rule t = some r ∧ readOsm S.prof.conv d.shape = .ok gm ∧ gm ≠ .null)
    (hroom : ∀ fs m, OsmLoads S.prof S.profile S.numeral (fileData asm file) fs m → insertBytes (fs.map (List.map whole)) ≤ S.mem ∧
      (∀ u : Tile, u.Valid → u.z = 10 → tileBytes S.mkMask ((S.env (fileData asm file)).decOf m) (fs.map (List.map whole)) u ≤ 2 ^ 30) ∧
      packBytes S.mkMask ((S.env (fileData asm file)).decOf m) (fs.map (List.map whole)) < 2 ^ 62)
    (hshort : ∀ m ctx, makeRenderCtx S.base none m = .ok ctx → ∀ q : Tile, q.Valid → q.z ≤ 10 → S.ShortLines (fileData asm file) ctx q) (a : TileDb MetaTable) :
    ∃ b, runImport (importParts (S.fileEnv srt strict threads asm file)) tasks a true b ∧ b.maxPrepared = some 10 ∧ SmallPacks b.features ∧ b.pf.reopen.size < 2 ^ 63 := by
  obtain ⟨n, hn, hperm⟩ := C72_objects file hf srt hsrt strict hwrap degrees asm threads
  obtain ⟨pipe, h1, h2⟩ := C72_can_end file hf srt hsrt strict hwrap degrees asm threads ht n hn _ .refl
  obtain ⟨_, s, fs, b1, b2, h3, h4, h5, h6⟩ := load_ends hS hD (pipe.got.map (List.map fun o => S.profile.object S.numeral o.id o.tags o.shape)) (by
    rw [fileData, List.map_map, ← List.map_flatten]
    exact (hperm pipe h1 h2).map _) _ .refl
  have hfl : FileLoads S.prof S.profile S.numeral srt strict threads asm file fs ⟨none, some b1, some b2⟩ := ⟨n, pipe, hn, h1, h2, s, b1, b2, h3, h4, h5, h6, rfl⟩
  have hl := C72_loads hf hsrt hwrap hfl
  obtain ⟨d, hd, hsome⟩ := hsome
  obtain ⟨b, k1, k2⟩ := osm_completes hS hD tasks hf' hp ht' hc hbatch hmem ⟨d, mem_fileData.2 hd, hsome⟩ hl (hroom _ _ hl) hshort a
  have k3 := loads_mono (loads := (S.fileEnv srt strict threads asm file).loads) (by
    rintro c o xs m ⟨h7, h8, h9, h10⟩
    exact ⟨h7, h8, fs, h9, h10 ▸ hfl⟩) k1
  exact ⟨b, k3, k2⟩

/-- the assembler makes areas -/
def Spec.MakesAreas (asm : List (List (LocatedEntity R)) → List (LocatedEntity R) → List (OsmItem LatLng)) : Prop := ∀ before b, ∀ o ∈ asm before b, ∃ items, o.shape = .area items

theorem areas_type (hasm : MakesAreas asm) (before bs : List (List (LocatedEntity R))) : ∀ o ∈ areasOf asm before bs, (itemDatum o).type = 3 := by
  induction bs generalizing before with
  | nil => intro o h; cases h
  | cons b bs ih =>
    intro o h
    rcases List.mem_append.1 h with h | h
    · obtain ⟨items, hi⟩ := hasm _ _ o h
      simp [itemDatum, Datum.type, hi]
    · exact ih _ o h

theorem id_inj {a b : Int} (ha : -2 ^ 63 ≤ a ∧ a < 2 ^ 63) (hb : -2 ^ 63 ≤ b ∧ b < 2 ^ 63) (h : a % 2 ^ 64 = b % 2 ^ 64) : a = b := by omega

/-- every node of the file with a layer is seen where it is (for the text see `C72_nodes`) -/
def Spec.FileNodesSeen (S : OsmSetting) (t : Tables) (g : ℝ) (file : List (List (OsmEntity R))) (q : Tile) (layers : List ClientLayer) : Prop :=
      ∀ id tags loc, .node id tags loc ∈ file.flatten → (∀ tags' loc', .node id tags' loc' ∈ file.flatten → tags' = tags) →
        ∀ r, decideBy t.nodes (tagValue tags) = some r →
        ∀ z, levelFor (areaOf S.prof (S.profile.object S.numeral id tags (.node (some (degrees loc))))) r.zoom = some z → z ≤ q.z → WellInside g q (degrees loc) →
        slippyTile q.z (degrees loc) = q ∧ ∃ L ∈ layers, L.name = r.layer ∧ ∃ c ∈ L.features, (c.id : Int) = id % 2 ^ 64 ∧ c.type = 1 ∧
          c.tags.Perm (r.shown S.numeral S.prof.toDouble (tagValue tags)) ∧
          ∃ cx cy : Int, ⟨[⟨cx, cy⟩], false⟩ ∈ c.parts ∧ |(cx : ℝ) - (mapX (degrees loc) * 2 ^ q.z - q.x) * 4096| ≤ g / 2 ^ (20 - q.z) + 1 ∧
            |(cy : ℝ) - (mapY (degrees loc) * 2 ^ q.z - q.y) * 4096| ≤ g / 2 ^ (20 - q.z) + 1

theorem file_nodes_seen (hf : GoodFile file) (hasm : MakesAreas asm) {q : Tile} {layers : List ClientLayer} (h3 :       ∀ d ∈ fileData asm file, ∀ l, d.shape = .node (some l) → ∀ r, d.rule t = some r →
        ∀ z, levelFor (areaOf S.prof (d.obj S.profile S.numeral)) r.zoom = some z → z ≤ q.z → WellInside g q l →
        (∀ d' ∈ fileData asm file, d'.id % 2 ^ 64 = d.id % 2 ^ 64 → d'.type = 1 → d' = d) →
        slippyTile q.z l = q ∧ ∃ L ∈ layers, L.name = r.layer ∧ ∃ c ∈ L.features, (c.id : Int) = d.id % 2 ^ 64 ∧ c.type = 1 ∧
          c.tags.Perm (r.shown S.numeral S.prof.toDouble (tagValue d.tags)) ∧
          ∃ cx cy : Int, ⟨[⟨cx, cy⟩], false⟩ ∈ c.parts ∧ |(cx : ℝ) - (mapX l * 2 ^ q.z - q.x) * 4096| ≤ g / 2 ^ (20 - q.z) + 1 ∧
            |(cy : ℝ) - (mapY l * 2 ^ q.z - q.y) * 4096| ≤ g / 2 ^ (20 - q.z) + 1) :
    FileNodesSeen S t g file q layers := by
  intro id tags loc hn hone r hr z hzl hzq hw
  have hrange : ∀ id tags loc, OsmEntity.node id tags loc ∈ file.flatten → (id, loc) ∈ nodesIn file ∧ -2 ^ 63 ≤ id ∧ id < 2 ^ 63 := by
    intro id tags loc h
    have h4 : (id, loc) ∈ nodesIn file := List.mem_filterMap.2 ⟨_, h, rfl⟩
    have := hf.nodes _ h4
    exact ⟨h4, by omega, by omega⟩
  refine h3 ⟨id, tags, .node (some (degrees loc))⟩ (mem_fileData.2 (.node id tags loc hn)) (degrees loc) rfl r hr z hzl hzq hw (fun d' hd' hid hty => ?_)
  rcases mem_fileData.1 hd' with ⟨id', tags', loc', h⟩ | ⟨id', tags', refs', h⟩ | ⟨o, h⟩
  · obtain ⟨i1, i2⟩ := hrange _ _ _ hn
    obtain ⟨j1, j2⟩ := hrange _ _ _ h
    have := id_inj j2 i2 hid
    subst this
    have h5 : loc' = loc := by
      by_contra hne
      have hp := hf.sorted
      rw [List.pairwise_iff_getElem] at hp
      obtain ⟨x, hx, ex⟩ := List.getElem_of_mem i1
      obtain ⟨y, hy, ey⟩ := List.getElem_of_mem j1
      rcases lt_trichotomy x y with hxy | hxy | hxy
      · have := (hp x y hx hy hxy).2
        rw [ex, ey] at this
        exact hne (this rfl).symm
      · subst hxy
        rw [ex] at ey
        injection ey with _ ey
        exact hne ey.symm
      · have := (hp y x hy hx hxy).2
        rw [ex, ey] at this
        exact hne (this rfl)
    rw [h5, hone tags' loc' h]
  · cases hty
  · rw [areas_type hasm _ _ o h] at hty
    cases hty

/-- After the import of a file (with any division into buffers, any number of threads, any order of events), the server answers every request for a tile, and every node of the
file that the table of the profile gives a layer is seen: in the tile where the Mercator projection puts the place that the file gives it, there, with its attributes. -/
theorem C72_nodes (hf : GoodFile file) (hsrt : SortsByAbsId srt) (hwrap : strict = true → ∀ m ∈ nodesIn file, m.2.x ≤ 347483647) (hasm : MakesAreas asm)
    (hS : S.Ok t e g) (hD : S.Fits (fileData asm file)) (runs : List (List String)) (hacts : changes runs = [.load false true, .pack, .tiles]) (a b : TileDb MetaTable)
    (hr : Imports (importParts (S.fileEnv srt strict threads asm file)) runs a b) (hsmall : SmallPacks b.features) (hsize : b.pf.reopen.size < 2 ^ 64) (features : List (UInt64 × Bytes))
    (hdb : EntriesOf b.features features) (ctx : GetCtx) (hctx : makeRenderCtx S.base (preparedString b.maxPrepared) b.info = .ok ctx)
    (q : Tile) (hv : q.Valid) (hz : q.z ≤ 20) (hshort : S.ShortLines (fileData asm file) ctx q) :
    ∃ bytes layers, getTile b.tiles features b.pf.reopen ctx q = .ok (if bytes = [] then none else some (ctx.encode bytes)) ∧
      (bytes.length < 2 ^ 32 → clientTile bytes = some layers ∧ (bytes = [] ↔ layers = [])) ∧
      ∀ id tags loc, .node id tags loc ∈ file.flatten → (∀ tags' loc', .node id tags' loc' ∈ file.flatten → tags' = tags) →
        ∀ r, decideBy t.nodes (tagValue tags) = some r →
        ∀ z, levelFor (areaOf S.prof (S.profile.object S.numeral id tags (.node (some (degrees loc))))) r.zoom = some z → z ≤ q.z → WellInside g q (degrees loc) →
        slippyTile q.z (degrees loc) = q ∧ ∃ L ∈ layers, L.name = r.layer ∧ ∃ c ∈ L.features, (c.id : Int) = id % 2 ^ 64 ∧ c.type = 1 ∧
          c.tags.Perm (r.shown S.numeral S.prof.toDouble (tagValue tags)) ∧
          ∃ cx cy : Int, ⟨[⟨cx, cy⟩], false⟩ ∈ c.parts ∧ |(cx : ℝ) - (mapX (degrees loc) * 2 ^ q.z - q.x) * 4096| ≤ g / 2 ^ (20 - q.z) + 1 ∧
            |(cy : ℝ) - (mapY (degrees loc) * 2 ^ q.z - q.y) * 4096| ≤ g / 2 ^ (20 - q.z) + 1 := by
  obtain ⟨bytes, layers, h1, h2, _, h3⟩ := C68_served hS hD runs hacts a b (file_imports hf hsrt hwrap hr) hsmall hsize features hdb ctx hctx q hv hz hshort
  exact ⟨bytes, layers, h1, h2, file_nodes_seen hf hasm h3⟩

/-- every way of the file with a layer is seen along its nodes (for the text see `C72_streets`) -/
def Spec.FileStreetsSeen (S : OsmSetting) (t : Tables) (e : Int) (g : ℝ) (file : List (List (OsmEntity R))) (q : Tile) (layers : List ClientLayer) : Prop :=
      ∀ id tags refs, .way id tags refs ∈ file.flatten → (∀ tags' refs', .way id tags' refs' ∈ file.flatten → tags' = tags ∧ refs' = refs) →
        ∀ r, decideBy t.ways (tagValue tags) = some r → ∀ places : List (Option LatLng), places = refs.map (fun i => (nodeAt (nodesIn file) i).map degrees) →
        ∀ z, levelFor (areaOf S.prof (S.profile.object S.numeral id tags (.way places))) r.zoom = some z → z ≤ q.z →
        ∀ A B, [A, B] <:+: keptPlaces (S.rd (S.mkMask ((places.filterMap (fun x => x)).map S.prof.conv)) q.z) places →
          (WellInside g q A → WellInside g q B →
            ¬ (|(inTile q (mapX A, mapY A)).1 - (inTile q (mapX B, mapY B)).1| < 2 * g / 2 ^ (20 - q.z) + 1 ∧
               |(inTile q (mapX A, mapY A)).2 - (inTile q (mapX B, mapY B)).2| < 2 * g / 2 ^ (20 - q.z) + 1) →
            LineSeen layers r.layer (id % 2 ^ 64) (r.shown S.numeral S.prof.toDouble (tagValue tags)) (fun p p' =>
              CloseBy (g / 2 ^ (20 - q.z) + 1) (p.x, p.y) (inTile q (mapX A, mapY A)) ∧ CloseBy (g / 2 ^ (20 - q.z) + 1) (p'.x, p'.y) (inTile q (mapX B, mapY B)))) ∧
          (∀ s s' : ℝ, 0 ≤ s → s ≤ 1 → 0 ≤ s' → s' ≤ 1 → Deep g q (between A B s) → Deep g q (between A B s') →
            ¬ (|(inTile q (between A B s)).1 - (inTile q (between A B s')).1| < (2 * e + 2 * g) / 2 ^ (20 - q.z) + 1 ∧
               |(inTile q (between A B s)).2 - (inTile q (between A B s')).2| < (2 * e + 2 * g) / 2 ^ (20 - q.z) + 1) →
            LineSeen layers r.layer (id % 2 ^ 64) (r.shown S.numeral S.prof.toDouble (tagValue tags)) (fun p p' =>
              ∀ u : ℝ, 0 ≤ u → u ≤ 1 → Deep g q (between A B u) → ∃ v : ℝ, 0 ≤ v ∧ v ≤ 1 ∧ CloseBy ((e + g) / 2 ^ (20 - q.z) + 1) (onSeg p p' v) (inTile q (between A B u))))

theorem file_streets_seen (hf : GoodFile file) (hasm : MakesAreas asm) {q : Tile} {layers : List ClientLayer} (h3 : StreetsSeen S t e g (fileData asm file) q layers) :
    FileStreetsSeen S t e g file q layers := by
  intro id tags refs hn hone r hr places hpl z hzl hzq
  subst hpl
  refine h3 ⟨id, tags, .way (refs.map (fun i => (nodeAt (nodesIn file) i).map degrees))⟩ (mem_fileData.2 (.way id tags refs hn)) _ rfl r hr z hzl hzq (fun d' hd' hid hty => ?_)
  rcases mem_fileData.1 hd' with ⟨id', tags', loc', h⟩ | ⟨id', tags', refs', h⟩ | ⟨o, h⟩
  · cases hty
  · have i1 := hf.ways _ _ _ hn
    have i2 := hf.ways _ _ _ h
    have := id_inj ⟨i2.1, i2.2.1⟩ ⟨i1.1, i1.2.1⟩ hid
    subst this
    obtain ⟨rfl, rfl⟩ := hone tags' refs' h
    rfl
  · rw [areas_type hasm _ _ o h] at hty
    cases hty

/-- After the import of a file, at the levels above 10: every way of the file that the table of the profile gives a layer is seen along its nodes, at the places that the file gives
to the ids of the nodes (nodes that are not in the file are left out, and so are those that simplification drops at this level, C41). -/
theorem C72_streets (hf : GoodFile file) (hsrt : SortsByAbsId srt) (hwrap : strict = true → ∀ m ∈ nodesIn file, m.2.x ≤ 347483647) (hasm : MakesAreas asm)
    (hS : S.Ok t e g) (hD : S.Fits (fileData asm file))
    (hlib : ∃ inter clipper correct, ClipLib e inter clipper correct ∧ LineLib e inter ∧ S.base.clip = clipGeometry inter clipper correct)
    (runs : List (List String)) (hacts : changes runs = [.load false true, .pack, .tiles]) (a b : TileDb MetaTable)
    (hr : Imports (importParts (S.fileEnv srt strict threads asm file)) runs a b) (hsmall : SmallPacks b.features) (hsize : b.pf.reopen.size < 2 ^ 64) (features : List (UInt64 × Bytes))
    (hdb : EntriesOf b.features features) (ctx : GetCtx) (hctx : makeRenderCtx S.base (preparedString b.maxPrepared) b.info = .ok ctx)
    (q : Tile) (hv : q.Valid) (hz10 : 10 < q.z) (hz : q.z ≤ 20) (hshort : S.ShortLines (fileData asm file) ctx q) :
    ∃ bytes layers, getTile b.tiles features b.pf.reopen ctx q = .ok (if bytes = [] then none else some (ctx.encode bytes)) ∧
      (bytes.length < 2 ^ 32 → clientTile bytes = some layers ∧ (bytes = [] ↔ layers = [])) ∧
      ∀ id tags refs, .way id tags refs ∈ file.flatten → (∀ tags' refs', .way id tags' refs' ∈ file.flatten → tags' = tags ∧ refs' = refs) →
        ∀ r, decideBy t.ways (tagValue tags) = some r → ∀ places : List (Option LatLng), places = refs.map (fun i => (nodeAt (nodesIn file) i).map degrees) →
        ∀ z, levelFor (areaOf S.prof (S.profile.object S.numeral id tags (.way places))) r.zoom = some z → z ≤ q.z →
        ∀ A B, [A, B] <:+: keptPlaces (S.rd (S.mkMask ((places.filterMap (fun x => x)).map S.prof.conv)) q.z) places →
          (WellInside g q A → WellInside g q B →
            ¬ (|(inTile q (mapX A, mapY A)).1 - (inTile q (mapX B, mapY B)).1| < 2 * g / 2 ^ (20 - q.z) + 1 ∧
               |(inTile q (mapX A, mapY A)).2 - (inTile q (mapX B, mapY B)).2| < 2 * g / 2 ^ (20 - q.z) + 1) →
            LineSeen layers r.layer (id % 2 ^ 64) (r.shown S.numeral S.prof.toDouble (tagValue tags)) (fun p p' =>
              CloseBy (g / 2 ^ (20 - q.z) + 1) (p.x, p.y) (inTile q (mapX A, mapY A)) ∧ CloseBy (g / 2 ^ (20 - q.z) + 1) (p'.x, p'.y) (inTile q (mapX B, mapY B)))) ∧
          (∀ s s' : ℝ, 0 ≤ s → s ≤ 1 → 0 ≤ s' → s' ≤ 1 → Deep g q (between A B s) → Deep g q (between A B s') →
            ¬ (|(inTile q (between A B s)).1 - (inTile q (between A B s')).1| < (2 * e + 2 * g) / 2 ^ (20 - q.z) + 1 ∧
               |(inTile q (between A B s)).2 - (inTile q (between A B s')).2| < (2 * e + 2 * g) / 2 ^ (20 - q.z) + 1) →
            LineSeen layers r.layer (id % 2 ^ 64) (r.shown S.numeral S.prof.toDouble (tagValue tags)) (fun p p' =>
              ∀ u : ℝ, 0 ≤ u → u ≤ 1 → Deep g q (between A B u) → ∃ v : ℝ, 0 ≤ v ∧ v ≤ 1 ∧ CloseBy ((e + g) / 2 ^ (20 - q.z) + 1) (onSeg p p' v) (inTile q (between A B u)))) := by
  obtain ⟨bytes, layers, h1, h2, h3⟩ := C70_streets hS hD hlib runs hacts a b (file_imports hf hsrt hwrap hr) hsmall hsize features hdb ctx hctx q hv hz10 hz hshort
  exact ⟨bytes, layers, h1, h2, file_streets_seen hf hasm h3⟩

/-- After the import of a file, everything that a client sees is an object of the file, with its attributes, at the place that the file gives to it. -/
theorem C72_in_place (hf : GoodFile file) (hsrt : SortsByAbsId srt) (hwrap : strict = true → ∀ m ∈ nodesIn file, m.2.x ≤ 347483647)
    (hS : S.Ok t e g) (hD : S.Fits (fileData asm file))
    (hlib : ∃ inter clipper correct simplify, ClipLib e inter clipper correct ∧ FaithLib e τ inter clipper simplify ∧ S.base.clip = clipGeometry inter clipper correct ∧
      ∀ z fs out, aggregateLineFeatures simplify z fs = .ok out → S.base.aggregate z fs = out)
    (hends : ∀ z, ∀ l : Line, l.head? = l.getLast? → (keep (S.rd (S.mkMask l) z) l).head? = (keep (S.rd (S.mkMask l) z) l).getLast?)
    (runs : List (List String)) (hacts : changes runs = [.load false true, .pack, .tiles]) (a b : TileDb MetaTable)
    (hr : Imports (importParts (S.fileEnv srt strict threads asm file)) runs a b) (hsmall : SmallPacks b.features) (hsize : b.pf.reopen.size < 2 ^ 64) (features : List (UInt64 × Bytes))
    (hdb : EntriesOf b.features features) (ctx : GetCtx) (hctx : makeRenderCtx S.base (preparedString b.maxPrepared) b.info = .ok ctx)
    (q : Tile) (hv : q.Valid) (hz : q.z ≤ 20) (hshort : S.ShortLines (fileData asm file) ctx q) :
    ∃ bytes layers, getTile b.tiles features b.pf.reopen ctx q = .ok (if bytes = [] then none else some (ctx.encode bytes)) ∧
      (bytes.length < 2 ^ 32 → clientTile bytes = some layers ∧ (bytes = [] ↔ layers = [])) ∧
      ∀ L ∈ layers, ∀ c ∈ L.features,
        ∃ d, FromFile asm file d ∧ ∃ r, d.rule t = some r ∧ L.name = r.layer ∧ (c.id : Int) = d.id % 2 ^ 64 ∧ c.type = d.type ∧
          c.tags.Perm (r.shown S.numeral S.prof.toDouble (tagValue d.tags)) ∧
          ∀ part ∈ c.parts,
            (c.type = 1 → ∃ l p, d.shape = .node (some l) ∧ part = ⟨[p], false⟩ ∧ CloseBy (g / 2 ^ (20 - q.z) + 1) (p.x, p.y) (inTile q (mapX l, mapY l))) ∧
            (c.type = 2 → part.closed = false ∧ 2 ≤ part.points.length ∧
              Follows ((e + g) / 2 ^ (20 - q.z) + 1 + (if q.z ≤ 10 then τ else 0)) part.points (fun p => ∃ d', FromFile asm file d' ∧ (10 < q.z → d' = d) ∧ d'.type = 2 ∧
                (∃ r', d'.rule t = some r' ∧ L.name = r'.layer ∧ c.tags.Perm (r'.shown S.numeral S.prof.toDouble (tagValue d'.tags))) ∧
                OnShape S.prof.conv (fun l => S.rd (S.mkMask l) q.z) q d'.shape p)) ∧
            (c.type = 3 → part.closed = true ∧ 2 ≤ part.points.length ∧
              Follows ((e + g) / 2 ^ (20 - q.z) + 1) (close part.points) (fun p => OnShape S.prof.conv (fun l => S.rd (S.mkMask l) q.z) q d.shape p ∨ OnFrame q p)) := by
  have := C71_osm hS hD hlib hends runs hacts a b (file_imports hf hsrt hwrap hr) hsmall hsize features hdb ctx hctx q hv hz hshort
  simpa only [mem_fileData] using this

end
end Tiles
