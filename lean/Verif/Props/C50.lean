import Verif.Spec.Profile
import Verif.Props.C24
import Verif.Props.C25
import Verif.Props.C37
import Verif.Props.C49
import Verif.Proof.Threads
/-! C50 — what is loaded from OSM objects is what the profile says, for every schedule of the handlers. -/
namespace Tiles
open Spec
variable {L : Type} (ctx : ProfileCtx L)

/-! ### one object -/

theorem approveByArea_eq (area : Int) (p : Pending) (args : List Int) :
    approveByArea area p args =
      match ((pairsOf args).find? (fun p => decide (p.2 = -1 ∨ area < p.2))) with
      | some q => setApproved p (q.1 % 2 ^ 32).toNat 21
      | none => p := by
  induction args using pairsOf.induct with
  | case1 a b l ih =>
    rw [approveByArea, pairsOf, List.find?_cons]
    by_cases h : b = -1 ∨ area < b
    · rw [if_pos h]; simp only [decide_eq_true h]; rfl
    · rw [if_neg h, ih]; simp only [decide_eq_false h]
  | case2 l h =>
    match l, h with
    | [], _ => rfl
    | [a], _ => rfl
    | a :: b :: l, h => exact absurd rfl (h a b l)

theorem addTag_append (tags : List (Bytes × Bytes)) (m : List Meta) (key : Bytes) (stod : Bytes → Option Nat) (toDouble : Int → Nat) :
    addTagAsBool tags m key = m ++ addTagAsBool tags [] key ∧ addTagAsString tags m key = m ++ addTagAsString tags [] key ∧
    addTagAsNumeric stod tags m key = m ++ addTagAsNumeric stod tags [] key ∧
    addTagAsInteger toDouble tags m key = m ++ addTagAsInteger toDouble tags [] key := by
  unfold addTagAsBool addTagAsString addTagAsNumeric addTagAsInteger
  cases tagValue tags key with
  | none => simp
  | some v =>
    refine ⟨by simp, by simp, ?_, ?_⟩
    · dsimp only; cases stod v <;> simp
    · dsimp only; cases fromCharsI64 v <;> simp

/-- the state after some calls -/
def afterCalls (o : OsmObj L) (p : Pending) (cs : List PfCall) (q : Pending) : Prop :=
  (q.approved = (p.approved || ((cs.filterMap (approval ctx o)).getLast?).isSome)) ∧
  ((q.zmin, q.zmax) = ((cs.filterMap (approval ctx o)).getLast?).getD (p.zmin, p.zmax)) ∧
  q.layer = ((cs.filterMap layerOf).getLast?).getD p.layer ∧
  q.metas = p.metas ++ cs.flatMap (addedBy ctx o) ∧
  (∀ g, q.geometry = some g → readOsm ctx.conv o.shape = .ok g)

theorem afterCalls_cons {o : OsmObj L} {p p' q : Pending} {c : PfCall} {cs : List PfCall} (h1 : afterCalls ctx o p [c] p')
    (h2 : afterCalls ctx o p' cs q) : afterCalls ctx o p (c :: cs) q := by
  obtain ⟨a1, b1, c1, d1, e1⟩ := h1
  obtain ⟨a2, b2, c2, d2, e2⟩ := h2
  refine ⟨?_, ?_, ?_, ?_, e2⟩
  · rw [a2, a1]
    simp only [List.filterMap_cons, List.filterMap_nil]
    cases approval ctx o c with
    | none => simp
    | some z => simp [List.getLast?_cons]
  · rw [b2]
    simp only [List.filterMap_cons, List.filterMap_nil] at b1 ⊢
    cases h : approval ctx o c with
    | none => rw [h] at b1; simp at b1; rw [b1.1, b1.2]
    | some z => rw [h] at b1; simp only [List.getLast?_singleton, Option.getD_some] at b1; rw [b1, List.getLast?_cons, Option.getD_some]
  · rw [c2]
    simp only [List.filterMap_cons, List.filterMap_nil] at c1 ⊢
    cases h : layerOf c with
    | none => rw [h] at c1; simp at c1; rw [c1]
    | some z => rw [h] at c1; simp only [List.getLast?_singleton, Option.getD_some] at c1; rw [c1, List.getLast?_cons, Option.getD_some]
  · rw [d2, d1]; simp

theorem readGeometry_eq {o : OsmObj L} {p : Pending} (h : ∀ g, p.geometry = some g → readOsm ctx.conv o.shape = .ok g) :
    readGeometry ctx o p = readOsm ctx.conv o.shape := by
  unfold readGeometry
  cases hg : p.geometry with
  | none => rfl
  | some g => exact (h g hg).symm

theorem applyCall_eq {o : OsmObj L} (hub : Fine ctx o) {p : Pending} (hp : ∀ g, p.geometry = some g → readOsm ctx.conv o.shape = .ok g)
    (c : PfCall) (hc : c ∈ o.calls) : (fails ctx o c = true ∧ applyCall ctx o p c = .throw_) ∨
      (fails ctx o c = false ∧ ∃ q, applyCall ctx o p c = .ok q ∧ afterCalls ctx o p [c] q) := by
  obtain ⟨t1, t2, t3, t4⟩ := (⟨fun key => (addTag_append o.tags p.metas key ctx.stod ctx.toDouble).1, fun key => (addTag_append o.tags p.metas key ctx.stod ctx.toDouble).2.1,
    fun key => (addTag_append o.tags p.metas key ctx.stod ctx.toDouble).2.2.1, fun key => (addTag_append o.tags p.metas key ctx.stod ctx.toDouble).2.2.2⟩ :
    (∀ key, addTagAsBool o.tags p.metas key = p.metas ++ addTagAsBool o.tags [] key) ∧ (∀ key, addTagAsString o.tags p.metas key = p.metas ++ addTagAsString o.tags [] key) ∧
    (∀ key, addTagAsNumeric ctx.stod o.tags p.metas key = p.metas ++ addTagAsNumeric ctx.stod o.tags [] key) ∧
    (∀ key, addTagAsInteger ctx.toDouble o.tags p.metas key = p.metas ++ addTagAsInteger ctx.toDouble o.tags [] key))
  cases c with
  | approvedMinByArea args =>
    rw [applyCall, setApprovedMinByArea, readGeometry_eq ctx hp]
    by_cases h : args.length % 2 = 0
    · rw [decide_eq_true h, verify_true, Res.ok_bind]
      cases hg : readOsm ctx.conv o.shape with
      | ub => exact absurd hg hub.reads
      | throw_ => left; simp [fails, hg]
      | ok g =>
        right
        obtain ⟨a, har⟩ := hub.area args hc h g hg
        refine ⟨by simp [fails, hg]; omega, _, by rw [Res.ok_bind, har, Res.ok_bind]; rfl, ?_⟩
        rw [approveByArea_eq]
        have ha : areaOf ctx o = a := by simp [areaOf, hg, har]
        have e : approval ctx o (.approvedMinByArea args) = ((pairsOf args).find? (fun p => decide (p.2 = -1 ∨ a < p.2))).map
          (fun p => ((p.1 % 2 ^ 32).toNat, 21)) := by rw [approval, ha]
        unfold afterCalls
        simp only [List.filterMap_cons, List.filterMap_nil, layerOf, List.flatMap_cons, List.flatMap_nil, addedBy]
        rw [e]
        cases (pairsOf args).find? (fun p => decide (p.2 = -1 ∨ a < p.2)) with
        | none => simp [hg]
        | some q => simp [setApproved, hg]
    · left
      rw [decide_eq_false h]
      refine ⟨by simp [fails]; omega, rfl⟩
  | approvedMin min => right; exact ⟨rfl, _, rfl, by simp [approval, layerOf, addedBy, setApprovedMin, setApproved, kMaxZoomLevel, afterCalls]; exact hp⟩
  | approvedFull => right; exact ⟨rfl, _, rfl, by simp [approval, layerOf, addedBy, setApproved, kMaxZoomLevel, afterCalls]; exact hp⟩
  | targetLayer name => right; exact ⟨rfl, _, rfl, by simp [approval, layerOf, addedBy, afterCalls]; exact hp⟩
  | addBool key v => right; exact ⟨rfl, _, rfl, by simp [approval, layerOf, addedBy, afterCalls]; exact hp⟩
  | addString key v => right; exact ⟨rfl, _, rfl, by simp [approval, layerOf, addedBy, afterCalls]; exact hp⟩
  | addNumeric key v => right; exact ⟨rfl, _, rfl, by simp [approval, layerOf, addedBy, afterCalls]; exact hp⟩
  | addInteger key v => right; exact ⟨rfl, _, rfl, by simp [approval, layerOf, addedBy, afterCalls]; exact hp⟩
  | tagAsBool key => right; exact ⟨rfl, _, rfl, by simp [approval, layerOf, addedBy, afterCalls, ← t1]; exact hp⟩
  | tagAsString key => right; exact ⟨rfl, _, rfl, by simp [approval, layerOf, addedBy, afterCalls, ← t2]; exact hp⟩
  | tagAsNumeric key => right; exact ⟨rfl, _, rfl, by simp [approval, layerOf, addedBy, afterCalls, ← t3]; exact hp⟩
  | tagAsInteger key => right; exact ⟨rfl, _, rfl, by simp [approval, layerOf, addedBy, afterCalls, ← t4]; exact hp⟩

theorem runProfile_eq {o : OsmObj L} (hub : Fine ctx o) (cs : List PfCall) (hcs : ∀ c ∈ cs, c ∈ o.calls) {p : Pending}
    (hp : ∀ g, p.geometry = some g → readOsm ctx.conv o.shape = .ok g) :
    ∃ q, runProfile ctx o p cs = .ok q ∧ afterCalls ctx o p (cs.takeWhile (fun c => !fails ctx o c)) q := by
  induction cs generalizing p with
  | nil => exact ⟨p, rfl, by simpa [afterCalls] using hp⟩
  | cons c cs ih =>
    rw [List.takeWhile_cons, runProfile]
    rcases applyCall_eq ctx hub hp c (hcs c (by simp)) with ⟨h1, h2⟩ | ⟨h1, p', h2, h3⟩
    · rw [h1, h2]
      exact ⟨p, rfl, by simpa [afterCalls] using hp⟩
    · rw [h1, h2]
      obtain ⟨q, h4, h5⟩ := ih (fun c hc => hcs c (by simp [hc])) h3.2.2.2.2
      exact ⟨q, h4, afterCalls_cons ctx h3 h5⟩

theorem finishMetadata_onePerKey (m : List Meta) : OnePerKey m (finishMetadata m) := by
  obtain ⟨h1, h2, h3⟩ := C37_duplicates_keep_one_partial m
  refine ⟨?_, h2, h3⟩
  have hs := (sortBy_sorted metaLe_trans metaLe_total m).sublist (uniqueKeys_sublist _)
  rw [List.nodup_iff_pairwise_ne, List.pairwise_map] at h1
  rw [List.pairwise_map]
  refine List.Pairwise.imp₂ (fun a b hab hne => ?_) hs h1
  refine ⟨?_, hne⟩
  unfold metaLe at hab
  rwa [if_neg hne] at hab

/-- What is stored for one object, for every profile: nothing when the profile does not approve it (or it has no geometry); an approved
object without layer, or whose geometry cannot be read, is an error; otherwise the feature described by the calls of the profile up to its
first error — the last approval and the last layer count, all metadata is kept, one entry per key. -/
theorem C50_object (o : OsmObj L) (hub : Fine ctx o) :
    (zoomOf ctx o = none → pendingFeature ctx o = .ok none) ∧
    (zoomOf ctx o ≠ none → layerName ctx o = [] → pendingFeature ctx o = .throw_) ∧
    (zoomOf ctx o ≠ none → layerName ctx o ≠ [] → readOsm ctx.conv o.shape = .throw_ → pendingFeature ctx o = .throw_) ∧
    (zoomOf ctx o ≠ none → layerName ctx o ≠ [] → readOsm ctx.conv o.shape = .ok .null → pendingFeature ctx o = .ok none) ∧
    (∀ g, zoomOf ctx o ≠ none → layerName ctx o ≠ [] → readOsm ctx.conv o.shape = .ok g → g ≠ .null →
      ∃ f, pendingFeature ctx o = .ok (some (layerName ctx o, f)) ∧ ∀ names i, names[i]? = some (layerName ctx o) → Describes ctx names o { f with layer := i }) := by
  obtain ⟨q, h1, h2, h3, h4, h5, h6⟩ := runProfile_eq ctx hub o.calls (fun _ h => h) (p := pendingInit) (by simp [pendingInit])
  have hz : ((counting ctx o).filterMap (approval ctx o)).getLast? = zoomOf ctx o := rfl
  have hl : ((counting ctx o).filterMap layerOf).getLast?.getD [] = layerName ctx o := rfl
  have hm : (counting ctx o).flatMap (addedBy ctx o) = added ctx o := rfl
  change q.approved = (false || (((counting ctx o).filterMap (approval ctx o)).getLast?).isSome) at h2
  change (q.zmin, q.zmax) = (((counting ctx o).filterMap (approval ctx o)).getLast?).getD (0, 0) at h3
  change q.layer = ((counting ctx o).filterMap layerOf).getLast?.getD [] at h4
  change q.metas = [] ++ (counting ctx o).flatMap (addedBy ctx o) at h5
  rw [hz] at h2 h3; rw [hl] at h4; rw [hm, List.nil_append] at h5
  rw [Bool.false_or] at h2
  have hr := readGeometry_eq ctx h6
  unfold pendingFeature
  simp only [h1, Res.ok_bind, h2, h4, hr, h5]
  refine ⟨fun hz => ?_, fun hz hl => ?_, fun hz hl hg => ?_, fun hz hl hg => ?_, fun g hz hl hg hn => ?_⟩
  · simp [hz]
  · obtain ⟨z, hz⟩ := Option.ne_none_iff_exists'.1 hz
    simp [hz, hl]
  · obtain ⟨z, hz⟩ := Option.ne_none_iff_exists'.1 hz
    simp [hz, hl, hg]
  · obtain ⟨z, hz⟩ := Option.ne_none_iff_exists'.1 hz
    simp [hz, hl, hg]
  · obtain ⟨z, hz⟩ := Option.ne_none_iff_exists'.1 hz
    refine ⟨⟨(o.id % 2 ^ 64).toNat, 0, q.zmin, q.zmax, finishMetadata (added ctx o), g⟩, by simp [hz, hl, hg, hn], fun names i hi => ?_⟩
    refine ⟨?_, hi, hl, ?_, finishMetadata_onePerKey _, hg⟩
    · dsimp only; omega
    · rw [hz] at h3 ⊢; dsimp only; rw [h3]; rfl

/-! ### all schedules -/

/-- the feature made of an object, with the index of its layer -/
def Made (names : List Bytes) (o : OsmObj L) (f : Feature) : Prop :=
  ∃ layer f0 i, pendingFeature ctx o = .ok (some (layer, f0)) ∧ f = { f0 with layer := i } ∧ names[i]? = some layer

def hasFeature (o : OsmObj L) : Bool := match pendingFeature ctx o with | .ok (some _) => true | _ => false

theorem made_mono {names names' : List Bytes} (hp : names <+: names') {o : OsmObj L} {f : Feature} (h : Made ctx names o f) : Made ctx names' o f := by
  obtain ⟨layer, f0, i, h1, h2, h3⟩ := h
  refine ⟨layer, f0, i, h1, h2, ?_⟩
  obtain ⟨t, rfl⟩ := hp
  rw [List.getElem?_append_left (List.getElem?_eq_some_iff.1 h3).1]; exact h3

/-- a thread has handled the objects `pre` -/
def Handled (names : List Bytes) (pre : List (OsmObj L)) (done : List Feature) : Prop :=
  (∀ o ∈ pre, ∃ r, pendingFeature ctx o = .ok r) ∧ List.Forall₂ (Made ctx names) (pre.filter (hasFeature ctx)) done

def HandlerInv (names : List Bytes) (os : List (OsmObj L)) : HandlerPc L → Prop
  | .next todo done => ∃ pre, os = pre ++ todo ∧ Handled ctx names pre done
  | .update layer f todo done => ∃ pre o, os = pre ++ o :: todo ∧ Handled ctx names pre done ∧ pendingFeature ctx o = .ok (some (layer, f))
  | .index layer f todo done => ∃ pre o, os = pre ++ o :: todo ∧ Handled ctx names pre done ∧ pendingFeature ctx o = .ok (some (layer, f))
  | .insert f todo done => ∃ pre o, os = pre ++ o :: todo ∧ Handled ctx names pre done ∧ Made ctx names o f
  | .failed => ∃ o ∈ os, ∀ r, pendingFeature ctx o ≠ .ok r

/-- the metadata a thread has passed to the builder -/
def passed : HandlerPc L → List Meta
  | .next _ done => done.flatMap (·.metas)
  | .update _ _ _ done => done.flatMap (·.metas)
  | .index _ f _ done => done.flatMap (·.metas) ++ f.metas
  | .insert f _ done => done.flatMap (·.metas) ++ f.metas
  | .failed => []

theorem handled_mono {names names' : List Bytes} (hp : names <+: names') {pre : List (OsmObj L)} {done : List Feature}
    (h : Handled ctx names pre done) : Handled ctx names' pre done :=
  ⟨h.1, h.2.imp (fun _ _ => made_mono ctx hp)⟩

theorem handlerInv_mono {names names' : List Bytes} (hp : names <+: names') {os : List (OsmObj L)} {pc : HandlerPc L}
    (h : HandlerInv ctx names os pc) : HandlerInv ctx names' os pc := by
  cases pc with
  | next todo done => obtain ⟨pre, h1, h2⟩ := h; exact ⟨pre, h1, handled_mono ctx hp h2⟩
  | update layer f todo done => obtain ⟨pre, o, h1, h2, h3⟩ := h; exact ⟨pre, o, h1, handled_mono ctx hp h2, h3⟩
  | index layer f todo done => obtain ⟨pre, o, h1, h2, h3⟩ := h; exact ⟨pre, o, h1, handled_mono ctx hp h2, h3⟩
  | insert f todo done => obtain ⟨pre, o, h1, h2, h3⟩ := h; exact ⟨pre, o, h1, handled_mono ctx hp h2, made_mono ctx hp h3⟩
  | failed => exact h

theorem handled_none {names : List Bytes} {pre : List (OsmObj L)} {done : List Feature} (h : Handled ctx names pre done) {o : OsmObj L}
    (ho : pendingFeature ctx o = .ok none) : Handled ctx names (pre ++ [o]) done := by
  refine ⟨?_, ?_⟩
  · intro o' h'
    rcases List.mem_append.1 h' with h' | h'
    · exact h.1 o' h'
    · rw [List.mem_singleton.1 h']; exact ⟨_, ho⟩
  · rw [List.filter_append, List.filter_cons_of_neg (by simp [hasFeature, ho]), List.filter_nil, List.append_nil]; exact h.2

theorem handled_some {names : List Bytes} {pre : List (OsmObj L)} {done : List Feature} (h : Handled ctx names pre done) {o : OsmObj L}
    {f : Feature} (ho : Made ctx names o f) : Handled ctx names (pre ++ [o]) (done ++ [f]) := by
  obtain ⟨layer, f0, i, h1, h2, h3⟩ := ho
  refine ⟨?_, ?_⟩
  · intro o' h'
    rcases List.mem_append.1 h' with h' | h'
    · exact h.1 o' h'
    · rw [List.mem_singleton.1 h']; exact ⟨_, h1⟩
  · rw [List.filter_append, List.filter_cons_of_pos (by simp [hasFeature, h1]), List.filter_nil]
    exact List.rel_append h.2 (.cons ⟨layer, f0, i, h1, h2, h3⟩ .nil)

/-- what holds at every moment of the loading -/
structure LoadInv (objs : List (List (OsmObj L))) (s : HandlerShared × List (HandlerPc L)) : Prop where
  inv : ∃ names all, s.1.names = names.zipIdx ∧ names.Nodup ∧ [kLayerCoastlineName] <+: names ∧
    (∀ n ∈ names, n = kLayerCoastlineName ∨ ∃ o ∈ objs.flatten, ∃ f, pendingFeature ctx o = .ok (some (n, f))) ∧
    MetaReach s.1.metas all ∧ (.failed ∉ s.2 → all.Perm (s.2.flatMap passed)) ∧ List.Forall₂ (HandlerInv ctx names) objs s.2

theorem forall2_mid {α β : Type} {R R' : α → β → Prop} {as : List α} {l r : List β} {p p' : β} (h : List.Forall₂ R as (l ++ p :: r))
    (hm : ∀ a b, R a b → R' a b) (hp : ∀ a ∈ as, R a p → R' a p') : List.Forall₂ R' as (l ++ p' :: r) := by
  induction l generalizing as with
  | nil =>
    cases h with
    | cons h1 h2 => exact .cons (hp _ (.head _) h1) (h2.imp hm)
  | cons b l ih =>
    cases h with
    | cons h1 h2 => exact .cons (hm _ _ h1) (ih h2 (fun a ha => hp a (.tail _ ha)))

theorem forall2_right {α β : Type} {R : α → β → Prop} {as : List α} {bs : List β} (h : List.Forall₂ R as bs) {b : β} (hb : b ∈ bs) :
    ∃ a ∈ as, R a b := by
  induction h with
  | nil => cases hb
  | cons h1 h2 ih =>
    rcases List.mem_cons.1 hb with rfl | hb
    · exact ⟨_, .head _, h1⟩
    · obtain ⟨a, h3, h4⟩ := ih hb; exact ⟨a, .tail _ h3, h4⟩

theorem forall2_left {α β : Type} {R : α → β → Prop} {as : List α} {bs : List β} (h : List.Forall₂ R as bs) {a : α} (ha : a ∈ as) :
    ∃ b ∈ bs, R a b := forall2_right h.flip ha

theorem loadInv_init (objs : List (List (OsmObj L))) : LoadInv ctx objs (loadInit objs) := by
  refine ⟨[kLayerCoastlineName], [], rfl, by simp, List.prefix_refl _, by simp, .start, fun _ => ?_, ?_⟩
  · have : (loadInit objs).2.flatMap passed = [] := by
      rw [List.flatMap_eq_nil_iff]
      intro p hp
      obtain ⟨os, _, rfl⟩ := List.mem_map.1 hp
      rfl
    rw [this]
  · unfold loadInit
    rw [List.forall₂_map_right_iff]
    exact List.forall₂_same.2 fun os _ => ⟨[], rfl, by simp, .nil⟩

theorem loadInv_step {objs : List (List (OsmObj L))} {s t : HandlerShared × List (HandlerPc L)} (h : LoadInv ctx objs s) (hs : LoadStep ctx s t) :
    LoadInv ctx objs t := by
  obtain ⟨names, all, h1, h2, h3, h4, h5, h6, h7⟩ := h
  cases hs with
  | flush s ps buf rest counts hq hb hc =>
    refine ⟨names, all ++ [], h1, h2, h3, h4, .step h5 (.flush _ buf rest counts hq hb hc), ?_, h7⟩
    rw [List.append_nil]; exact h6
  | thread hs =>
    obtain ⟨s, s', a, b, p, p', hp⟩ := hs
    have hfl : ∀ q : HandlerPc L, passed p' = passed p ++ passed q → HandlerPc.failed ∉ a ++ p' :: b → p ≠ .failed →
        (all ++ passed q).Perm ((a ++ p' :: b).flatMap passed) := by
      intro q hq hnf hpf
      have := h6 (by
        intro hm
        rcases List.mem_append.1 hm with hm | hm
        · exact hnf (List.mem_append.2 (.inl hm))
        · rcases List.mem_cons.1 hm with hm | hm
          · exact hpf hm.symm
          · exact hnf (List.mem_append.2 (.inr (.tail _ hm))))
      simp only [List.flatMap_append, List.flatMap_cons] at this ⊢
      rw [hq]
      refine (this.append_right _).trans ?_
      simp only [List.append_assoc]
      exact (List.Perm.refl _).append ((List.Perm.refl _).append List.perm_append_comm)
    cases p with
    | failed => simp [handlerStep] at hp
    | next todo done =>
      cases todo with
      | nil => simp [handlerStep] at hp
      | cons o todo =>
        simp only [handlerStep] at hp
        split at hp
        · rename_i layer f hpf
          injection hp with hp; injection hp with e1 e2; subst e1 e2
          refine ⟨names, all, h1, h2, h3, h4, h5, fun hn => ?_, forall2_mid h7 (fun _ _ h => h) ?_⟩
          · simpa [passed] using hfl (.next [] []) (by simp [passed]) hn (by simp)
          · rintro os _ ⟨pre, hpre, hh⟩
            exact ⟨pre, o, hpre, hh, hpf⟩
        · rename_i hpf
          injection hp with hp; injection hp with e1 e2; subst e1 e2
          refine ⟨names, all, h1, h2, h3, h4, h5, fun hn => ?_, forall2_mid h7 (fun _ _ h => h) ?_⟩
          · simpa [passed] using hfl (.next [] []) (by simp [passed]) hn (by simp)
          · rintro os _ ⟨pre, hpre, hh⟩
            exact ⟨pre ++ [o], by simp [hpre], handled_none ctx hh hpf⟩
        · rename_i hne1 hne2
          injection hp with hp; injection hp with e1 e2; subst e1 e2
          refine ⟨names, all, h1, h2, h3, h4, h5, fun hn => absurd (by simp) hn, forall2_mid h7 (fun _ _ h => h) ?_⟩
          rintro os _ ⟨pre, hpre, hh⟩
          refine ⟨o, by simp [hpre], fun r hr => ?_⟩
          cases r with
          | none => exact hne2 hr
          | some r => exact hne1 r.1 r.2 hr
    | update layer f todo done =>
      simp only [handlerStep] at hp
      injection hp with hp; injection hp with e1 e2; subst e1 e2
      refine ⟨names, all ++ f.metas, h1, h2, h3, h4, .step h5 (.update _ f.metas), fun hn => ?_, forall2_mid h7 (fun _ _ h => h) (fun _ _ h => h)⟩
      simpa [passed] using hfl (.index [] f [] []) (by simp [passed]) hn (by simp)
    | index layer f todo done =>
      simp only [handlerStep] at hp
      injection hp with hp; injection hp with e1 e2; subst e1 e2
      obtain ⟨names', i, e, hd, hpre, hi, hm⟩ := getOrCreateIndex_spec names h2 layer
      have e' : getLayerIdx s.names layer = (names'.zipIdx, i) := by rw [h1]; exact e
      refine ⟨names', all, by rw [e'], hd, h3.trans hpre, ?_, h5, fun hn => ?_, forall2_mid h7 (fun _ _ h => handlerInv_mono ctx hpre h) ?_⟩
      · intro n hn
        rcases (hm n).1 hn with hn | rfl
        · exact h4 n hn
        · right
          have : ∃ os ∈ objs, HandlerInv ctx names os (.index n f todo done) := by
            exact forall2_right h7 (by simp)
          obtain ⟨os, hos, pre, o, hpre', _, hpf⟩ := this
          exact ⟨o, List.mem_flatten.2 ⟨os, hos, by rw [hpre']; simp⟩, f, hpf⟩
      · simpa [passed] using hfl (.next [] []) (by simp [passed]) hn (by simp)
      · rintro os _ ⟨pre, o, hpre', hh, hpf⟩
        exact ⟨pre, o, hpre', handled_mono ctx hpre hh, layer, f, i, hpf, by rw [e'], hi⟩
    | insert f todo done =>
      simp only [handlerStep] at hp
      injection hp with hp; injection hp with e1 e2; subst e1 e2
      refine ⟨names, all, h1, h2, h3, h4, h5, fun hn => ?_, forall2_mid h7 (fun _ _ h => h) ?_⟩
      · simpa [passed] using hfl (.next [] []) (by simp [passed]) hn (by simp)
      · rintro os _ ⟨pre, o, hpre, hh, hm⟩
        exact ⟨pre ++ [o], by simp [hpre], handled_some ctx hh hm⟩

theorem loadInv_reach {objs : List (List (OsmObj L))} {s : HandlerShared × List (HandlerPc L)} (h : Reach (LoadStep ctx) (loadInit objs) s) :
    LoadInv ctx objs s := by
  induction h with
  | refl => exact loadInv_init ctx objs
  | step _ hs ih => exact loadInv_step ctx ih hs

theorem hasFeature_eq {o : OsmObj L} (hub : Fine ctx o) {r : Option (Bytes × Feature)} (h : pendingFeature ctx o = .ok r) :
    hasFeature ctx o = isWanted ctx o := by
  obtain ⟨c1, c2, c3, c4, c5⟩ := C50_object ctx o hub
  unfold hasFeature isWanted
  by_cases hz : zoomOf ctx o = none
  · rw [c1 hz, hz]; rfl
  · have hs : (zoomOf ctx o).isSome = true := by rw [Option.isSome_iff_ne_none]; exact hz
    by_cases hl : layerName ctx o = []
    · rw [c2 hz hl] at h; cases h
    · rw [hs]
      cases hg : readOsm ctx.conv o.shape with
      | ub => exact absurd hg hub.reads
      | throw_ => rw [c3 hz hl hg] at h; cases h
      | ok g =>
        by_cases hn : g = .null
        · subst hn; rw [c4 hz hl hg]; rfl
        · obtain ⟨f, hf, _⟩ := c5 g hz hl hg hn
          rw [hf]
          cases g <;> first | rfl | exact absurd rfl hn

theorem made_describes {o : OsmObj L} (hub : Fine ctx o) {names : List Bytes} {f : Feature} (h : Made ctx names o f) :
    Describes ctx names o f := by
  obtain ⟨layer, f0, i, h1, rfl, h3⟩ := h
  obtain ⟨c1, c2, c3, c4, c5⟩ := C50_object ctx o hub
  by_cases hz : zoomOf ctx o = none
  · rw [c1 hz] at h1; cases h1
  · by_cases hl : layerName ctx o = []
    · rw [c2 hz hl] at h1; cases h1
    · cases hg : readOsm ctx.conv o.shape with
      | ub => exact absurd hg hub.reads
      | throw_ => rw [c3 hz hl hg] at h1; cases h1
      | ok g =>
        by_cases hn : g = .null
        · subst hn; rw [c4 hz hl hg] at h1; cases h1
        · obtain ⟨f, hf, hd⟩ := c5 g hz hl hg hn
          rw [hf] at h1; injection h1 with h1; injection h1 with h1; injection h1 with e1 e2; subst e1 e2
          exact hd names i h3

theorem forall2_imp_mem {α β : Type} {R R' : α → β → Prop} {as : List α} {bs : List β} (h : List.Forall₂ R as bs)
    (hm : ∀ a ∈ as, ∀ b, R a b → R' a b) : List.Forall₂ R' as bs := by
  induction h with
  | nil => exact .nil
  | cons h1 h2 ih => exact .cons (hm _ (.head _) _ h1) (ih fun a ha => hm a (.tail _ ha))

/-- All objects were handled (`dones`: the features each thread inserted, in its order) and the builder's queue is empty.  Then the two
tables can be stored and loaded again, and for every schedule of the threads and of the flushes: every thread inserted for its wanted
objects, and for no others, in order, the feature the profile describes, with the index of its layer in the loaded names; the names are
different, the first is the coastline, the others belong to stored features; the metadata table holds, once, the metadata that more than
one stored feature carries. -/
theorem C50_load (objs : List (List (OsmObj L))) (hub : ∀ o ∈ objs.flatten, Fine ctx o)
    (hlen : ∀ o ∈ objs.flatten, isWanted ctx o = true → (layerName ctx o).length < 2 ^ 32 ∧
      ∀ m ∈ added ctx o, m.key.length < 2 ^ 32 ∧ m.value.length < 2 ^ 32)
    (s : HandlerShared × List (HandlerPc L)) (hr : Reach (LoadStep ctx) (loadInit objs) s) (dones : List (List Feature))
    (hend : s.2 = dones.map (.next [] ·)) (hq : s.1.metas.queue = []) :
    ∃ b1 b2 names tbl, loadStore s.1 = .ok (b1, b2) ∧ loadLayerNames (some b1) = .ok names ∧ loadSharedMetadata (some b2) = .ok tbl ∧
      List.Forall₂ (fun os fs => List.Forall₂ (Describes ctx names) (os.filter (isWanted ctx)) fs) objs dones ∧
      names.Nodup ∧ names[0]? = some kLayerCoastlineName ∧
      (∀ n, n ∈ names ↔ n = kLayerCoastlineName ∨ ∃ o ∈ objs.flatten, isWanted ctx o = true ∧ n = layerName ctx o) ∧
      tbl.Nodup ∧ ∀ m, m ∈ tbl ↔ 2 ≤ (dones.flatten.flatMap (·.metas)).count m := by
  obtain ⟨names, all, h1, h2, h3, h4, h5, h6, h7⟩ := loadInv_reach ctx hr
  have hperm : all.Perm (dones.flatten.flatMap (·.metas)) := by
    have := h6 (by rw [hend]; simp)
    refine this.trans (.of_eq ?_)
    rw [hend, List.flatMap_map, List.flatten_eq_flatMap, List.flatMap_assoc]
    rfl
  have hdesc : List.Forall₂ (fun os fs => List.Forall₂ (Describes ctx names) (os.filter (isWanted ctx)) fs) objs dones := by
    rw [hend, List.forall₂_map_right_iff] at h7
    refine forall2_imp_mem h7 ?_
    rintro os hos fs ⟨pre, hpre, hok, hall⟩
    rw [List.append_nil] at hpre; subst hpre
    have hmem : ∀ o ∈ os, o ∈ objs.flatten := fun o ho => List.mem_flatten.2 ⟨os, hos, ho⟩
    rw [List.filter_congr (fun o ho => hasFeature_eq ctx (hub o (hmem o ho)) (hok o ho).choose_spec)] at hall
    exact forall2_imp_mem hall fun o ho f hf => made_describes ctx (hub o (hmem o (List.mem_filter.1 ho).1)) hf
  have hwant : ∀ o ∈ objs.flatten, ∀ n f, pendingFeature ctx o = .ok (some (n, f)) → isWanted ctx o = true ∧ n = layerName ctx o := by
    intro o ho n f hf
    refine ⟨by rw [← hasFeature_eq ctx (hub o ho) hf]; simp [hasFeature, hf], ?_⟩
    obtain ⟨h, _⟩ := (made_describes ctx (hub o ho) (names := [n]) ⟨n, f, 0, hf, rfl, rfl⟩).layer
    rfl
  have hnames : ∀ n, n ∈ names ↔ n = kLayerCoastlineName ∨ ∃ o ∈ objs.flatten, isWanted ctx o = true ∧ n = layerName ctx o := by
    intro n
    constructor
    · intro hn
      rcases h4 n hn with h | ⟨o, ho, f, hf⟩
      · exact .inl h
      · exact .inr ⟨o, ho, hwant o ho n f hf⟩
    · rintro (rfl | ⟨o, ho, hw, rfl⟩)
      · exact h3.subset (by simp)
      · obtain ⟨os, hos, hoo⟩ := List.mem_flatten.1 ho
        obtain ⟨fs, _, h⟩ := forall2_left hdesc hos
        obtain ⟨f, _, hf⟩ := forall2_left h (List.mem_filter.2 ⟨hoo, hw⟩)
        exact List.mem_of_getElem? hf.layer
  have hmetas : ∀ m ∈ dones.flatten.flatMap (·.metas), m.key.length < 2 ^ 32 ∧ m.value.length < 2 ^ 32 := by
    intro m hm
    obtain ⟨f, hf, hm⟩ := List.mem_flatMap.1 hm
    obtain ⟨fs, hfs, hf⟩ := List.mem_flatten.1 hf
    obtain ⟨os, hos, h⟩ := forall2_right hdesc hfs
    obtain ⟨o, ho, hd⟩ := forall2_right h hf
    obtain ⟨ho, hw⟩ := List.mem_filter.1 ho
    exact (hlen o (List.mem_flatten.2 ⟨os, hos, ho⟩) hw).2 m (hd.metas.least m hm).1
  have h0 : names[0]? = some kLayerCoastlineName := by obtain ⟨t, rfl⟩ := h3; rfl
  obtain ⟨b, hb1, hb2⟩ := store_load names (by
    intro n hn
    rcases (hnames n).1 hn with rfl | ⟨o, ho, hw, rfl⟩
    · decide
    · exact (hlen o ho hw).1)
  obtain ⟨t1, t2, t3⟩ := C24_table_exact h5 hq
  have ht : ∀ m, m ∈ (metaTable s.1.metas.counts).map (·.1) ↔ 2 ≤ (dones.flatten.flatMap (·.metas)).count m := by
    intro m
    rw [List.mem_map, ← hperm.count_eq]
    constructor
    · rintro ⟨⟨m', n⟩, hm, rfl⟩; obtain ⟨e, h⟩ := (t1 m' n).1 hm; rw [← e]; exact h
    · intro h; exact ⟨(m, _), (t1 m _).2 ⟨rfl, h⟩, rfl⟩
  have hre := C24_reload ((metaTable s.1.metas.counts).map (·.1)) (by
    intro m hm
    refine hmetas m (List.count_pos_iff.1 ?_)
    have := (ht m).1 hm; omega)
  refine ⟨b, _, names, _, ?_, hb2, hre, hdesc, h2, h0, hnames, t2, ht⟩
  unfold loadStore
  rw [h1, hb1]; rfl

/-- No handler fails, for any schedule, when the profile gives every approved object a layer and the geometry of approved objects can be read. -/
theorem C50_no_failure (objs : List (List (OsmObj L))) (hub : ∀ o ∈ objs.flatten, Fine ctx o)
    (hgood : ∀ o ∈ objs.flatten, zoomOf ctx o ≠ none → layerName ctx o ≠ [] ∧ readOsm ctx.conv o.shape ≠ .throw_)
    (s : HandlerShared × List (HandlerPc L)) (hr : Reach (LoadStep ctx) (loadInit objs) s) : .failed ∉ s.2 := by
  intro hf
  obtain ⟨names, all, h1, h2, h3, h4, h5, h6, h7⟩ := loadInv_reach ctx hr
  obtain ⟨os, hos, o, ho, hno⟩ := forall2_right h7 hf
  have hm := List.mem_flatten.2 ⟨os, hos, ho⟩
  obtain ⟨c1, c2, c3, c4, c5⟩ := C50_object ctx o (hub o hm)
  by_cases hz : zoomOf ctx o = none
  · exact hno _ (c1 hz)
  · obtain ⟨g1, g2⟩ := hgood o hm hz
    cases hg : readOsm ctx.conv o.shape with
    | ub => exact (hub o hm).reads hg
    | throw_ => exact g2 hg
    | ok g =>
      by_cases hn : g = .null
      · subst hn; exact hno _ (c4 hz g1 hg)
      · obtain ⟨f, hf, _⟩ := c5 g hz g1 hg hn
        exact hno _ hf

/-- ... and an approved object without a layer makes the thread that gets it fail. -/
theorem C50_no_layer_fails (o : OsmObj L) (hub : Fine ctx o) (hz : zoomOf ctx o ≠ none) (hl : layerName ctx o = [])
    (s : HandlerShared) (todo : List (OsmObj L)) (done : List Feature) :
    handlerStep ctx s (.next (o :: todo) done) = some (s, .failed) := by
  simp only [handlerStep, (C50_object ctx o hub).2.1 hz hl]

def handlerWeight : HandlerPc L → Nat
  | .next todo _ => 4 * todo.length
  | .update _ _ todo _ => 3 + 4 * todo.length
  | .index _ _ todo _ => 2 + 4 * todo.length
  | .insert _ todo _ => 1 + 4 * todo.length
  | .failed => 0

theorem handlerStep_weight {s s' : HandlerShared} {p p' : HandlerPc L} (h : handlerStep ctx s p = some (s', p')) : handlerWeight p' < handlerWeight p := by
  cases p with
  | failed => simp [handlerStep] at h
  | next todo done =>
    cases todo with
    | nil => simp [handlerStep] at h
    | cons o todo =>
      simp only [handlerStep] at h
      split at h <;> (injection h with h; injection h with _ e2; subst e2; simp only [handlerWeight, List.length_cons]; omega)
  | update layer f todo done =>
    simp only [handlerStep] at h; injection h with h; injection h with _ e2; subst e2; simp only [handlerWeight]; omega
  | index layer f todo done =>
    simp only [handlerStep] at h; injection h with h; injection h with _ e2; subst e2; simp only [handlerWeight]; omega
  | insert f todo done =>
    simp only [handlerStep] at h; injection h with h; injection h with _ e2; subst e2; simp only [handlerWeight]; omega

theorem handler_stuck {s : HandlerShared} {p : HandlerPc L} (h : handlerStep ctx s p = none) (hf : p ≠ .failed) : ∃ done, p = .next [] done := by
  cases p with
  | failed => exact absurd rfl hf
  | next todo done =>
    cases todo with
    | nil => exact ⟨done, rfl⟩
    | cons o todo => simp only [handlerStep] at h; split at h <;> cases h
  | update layer f todo done => simp [handlerStep] at h
  | index layer f todo done => simp [handlerStep] at h
  | insert f todo done => simp [handlerStep] at h

/-- Under the same conditions the loading can always come to its end, whatever happened so far. -/
theorem C50_can_end (objs : List (List (OsmObj L))) (hub : ∀ o ∈ objs.flatten, Fine ctx o)
    (hgood : ∀ o ∈ objs.flatten, zoomOf ctx o ≠ none → layerName ctx o ≠ [] ∧ readOsm ctx.conv o.shape ≠ .throw_)
    (s : HandlerShared × List (HandlerPc L)) (hr : Reach (LoadStep ctx) (loadInit objs) s) :
    ∃ (t : HandlerShared × List (HandlerPc L)) (dones : List (List Feature)), Reach (LoadStep ctx) s t ∧ t.2 = dones.map (.next [] ·) ∧ t.1.metas.queue = [] := by
  obtain ⟨n, hn⟩ : ∃ n, (s.2.map handlerWeight).sum = n := ⟨_, rfl⟩
  induction n using Nat.strongRecOn generalizing s with
  | ind n ih =>
    have hnf := C50_no_failure ctx objs hub hgood s hr
    by_cases hall : ∀ p ∈ s.2, handlerStep ctx s.1 p = none
    · have hd : ∃ dones : List (List Feature), s.2 = dones.map (.next [] ·) := by
        have : ∀ ps : List (HandlerPc L), (∀ p ∈ ps, ∃ done, p = .next [] done) → ∃ dones : List (List Feature), ps = dones.map (.next [] ·) := by
          intro ps hp
          induction ps with
          | nil => exact ⟨[], rfl⟩
          | cons p ps ih =>
            obtain ⟨d, hd⟩ := hp p (.head _)
            obtain ⟨ds, hds⟩ := ih fun p h => hp p (.tail _ h)
            exact ⟨d :: ds, by rw [hd, hds]; rfl⟩
        exact this _ fun p hp => handler_stuck ctx (hall p hp) (fun e => hnf (e ▸ hp))
      obtain ⟨dones, hd⟩ := hd
      by_cases hq : s.1.metas.queue = []
      · exact ⟨s, dones, .refl, hd, hq⟩
      · obtain ⟨names, all, h1, h2, h3, h4, h5, h6, h7⟩ := loadInv_reach ctx hr
        obtain ⟨c, hc⟩ := C24_flush_never_throws h5 s.1.metas.queue
        exact ⟨({ s.1 with metas := ⟨[], c⟩ }, s.2), dones, .step .refl (.flush s.1 s.2 s.1.metas.queue [] c (by simp) hq hc), hd, rfl⟩
    · simp only [not_forall] at hall
      obtain ⟨p, hp, hne⟩ := hall
      obtain ⟨⟨s', p'⟩, he⟩ := Option.ne_none_iff_exists'.1 hne
      obtain ⟨a, b, hab⟩ := List.append_of_mem hp
      have hst : LoadStep ctx s (s', a ++ p' :: b) := by
        have e : s = (s.1, a ++ p :: b) := by rw [← hab]
        rw [e]
        exact .thread (.mk _ _ a b p p' he)
      have hlt : (((s', a ++ p' :: b) : HandlerShared × List (HandlerPc L)).2.map handlerWeight).sum < n := by
        have := handlerStep_weight ctx he
        rw [← hn, hab]
        simp only [List.map_append, List.map_cons, List.sum_append, List.sum_cons]
        omega
      obtain ⟨t, dones, h1, h2, h3⟩ := ih _ hlt _ (.step hr hst) rfl
      refine ⟨t, dones, ?_, h2, h3⟩
      exact reach_trans (.step .refl hst) h1

/-! ### to the tile -/

/-- From the objects to the tile: the inserter runs on what the handlers insert, and the database is rendered live with the layer names and
metadata that were stored.  Whatever is read for a tile is the feature of a wanted object that the tile shows; and the feature of every
wanted object that the tile shows (and that lies in an index tile the tile shares area with) is read. -/
theorem C50_read (objs : List (List (OsmObj L))) (hub : ∀ o ∈ objs.flatten, Fine ctx o)
    (hlen : ∀ o ∈ objs.flatten, isWanted ctx o = true → (layerName ctx o).length < 2 ^ 32 ∧
      ∀ m ∈ added ctx o, m.key.length < 2 ^ 32 ∧ m.value.length < 2 ^ 32)
    (s : HandlerShared × List (HandlerPc L)) (hr : Reach (LoadStep ctx) (loadInit objs) s) (dones : List (List Feature))
    (hend : s.2 = dones.map (.next [] ·)) (hq : s.1.metas.queue = [])
    (crc : Bytes → UInt32) (upper lower : Nat) (ser : Feature → Bytes)
    (hfs : ∀ f ∈ dones.flatten, FeatureOk f ∧ (boundingBox f.geometry).InRange ∧ serializeFeature (fun _ => []) [] true f = .ok (ser f) ∧
      32 ≤ (ser f).length ∧ (ser f).length < 2 ^ 32) (hmany : dones.flatten.length < 2 ^ 32)
    (si : InsShared × List InsPc) (hi : InsRun crc cacheTiles upper lower (fun _ => none) ⟨[], 0⟩ (dones.map (List.map InsCall.feature)) si)
    (hpf : si.1.pf.size < 2 ^ 64) (hfin : .finished ∈ si.2) (features : List (UInt64 × Bytes)) (hdb : EntriesOf si.1.db features)
    (q : Tile) (hv : q.Valid) (hz : q.z ≤ 20) :
    ∃ b1 b2 names tbl, loadStore s.1 = .ok (b1, b2) ∧ loadLayerNames (some b1) = .ok names ∧ loadSharedMetadata (some b2) = .ok tbl ∧
      ∀ gctx : GetCtx, gctx.layerNames = names → gctx.dec = tbl → gctx.dec.length ≤ 2 ^ 64 →
      ∃ ps gs, packsOf features si.1.pf q = .ok ps ∧ readPacked gctx (specOf q) ps = .ok gs ∧
        (∀ g ∈ gs, ∃ o ∈ objs.flatten, isWanted ctx o = true ∧ ∃ f, Describes ctx gctx.layerNames o f ∧ g = asRead f ∧ Shows q f) ∧
        (∀ o ∈ objs.flatten, isWanted ctx o = true → ∃ f, Describes ctx gctx.layerNames o f ∧ (Shows q f → Indexed q f → asRead f ∈ gs)) := by
  obtain ⟨b1, b2, names, tbl, h1, h2, h3, h4, _⟩ := C50_load ctx objs hub hlen s hr dones hend hq
  refine ⟨b1, b2, names, tbl, h1, h2, h3, fun gctx hn hdec hdl => ?_⟩
  obtain ⟨ps, gs, e1, e2, e3⟩ := C49_read crc upper lower dones ser hfs hmany si hi hpf hfin features hdb gctx hdl q hv hz
  refine ⟨ps, gs, e1, e2, fun g hg => ?_, fun o ho hw => ?_⟩
  · obtain ⟨f, hf, rfl, hs, hx⟩ := (e3 g).1 hg
    obtain ⟨fs, hfs, hf⟩ := List.mem_flatten.1 hf
    obtain ⟨os, hos, h⟩ := forall2_right h4 hfs
    obtain ⟨o, ho, hd⟩ := forall2_right h hf
    obtain ⟨ho, hw⟩ := List.mem_filter.1 ho
    exact ⟨o, List.mem_flatten.2 ⟨os, hos, ho⟩, hw, f, hn ▸ hd, rfl, hs⟩
  · obtain ⟨os, hos, ho⟩ := List.mem_flatten.1 ho
    obtain ⟨fs, hfs, h⟩ := forall2_left h4 hos
    obtain ⟨f, hf, hd⟩ := forall2_left h (List.mem_filter.2 ⟨ho, hw⟩)
    exact ⟨f, hn ▸ hd, fun hs hx => (e3 _).2 ⟨f, List.mem_flatten.2 ⟨fs, hfs, hf⟩, rfl, hs, hx⟩⟩

/-! ### examples -/

/-- a context for the examples: locations are points, the area is constant -/
def C50_ctx : ProfileCtx XY := ⟨id, fun _ => .ok 50, fun _ => none, fun i => i.toNat⟩

/-- a road: layer and zoom level are set twice, a tag is exported -/
def C50_road : OsmObj XY := ⟨-5, [([104], [65])], .way [some ⟨1, 1⟩, none, some ⟨2, 2⟩],
  [.approvedMin 3, .targetLayer [120], .tagAsString [104], .approvedMinByArea [9, 10, 7, 60, 2, -1], .targetLayer [114], .tagAsBool [99]]⟩
/-- an object the profile does not approve -/
def C50_other : OsmObj XY := ⟨6, [], .node (some ⟨3, 3⟩), [.targetLayer [114]]⟩
/-- the script fails after it approved the object: stored all the same, without what the script would have added afterwards -/
def C50_half : OsmObj XY := ⟨7, [], .node (some ⟨4, 4⟩), [.approvedFull, .targetLayer [112], .approvedMinByArea [9], .addBool [98] true]⟩

example : pendingFeature C50_ctx C50_road = .ok (some ([114], ⟨18446744073709551611, 0, 7, 21, [⟨[104], [2, 65]⟩], .polyline [[⟨1, 1⟩, ⟨2, 2⟩]]⟩)) := by
  decide +kernel
example : isWanted C50_ctx C50_road = true ∧ isWanted C50_ctx C50_other = false ∧ isWanted C50_ctx C50_half = true := by decide +kernel
/-- finding: an error in the script does not prevent the object from being stored -/
theorem C50_script_error_stored : fails C50_ctx C50_half (.approvedMinByArea [9]) = true ∧
    pendingFeature C50_ctx C50_half = .ok (some ([112], ⟨7, 0, 0, 21, [], .point [⟨4, 4⟩]⟩)) := by decide +kernel

/-- the conditions of the theorems are met: two threads, three objects, and an execution that ends -/
example : ∃ (s : HandlerShared × List (HandlerPc XY)) (dones : List (List Feature)), Reach (LoadStep C50_ctx) (loadInit [[C50_road, C50_other], [C50_half]]) s ∧ s.2 = dones.map (.next [] ·) ∧ s.1.metas.queue = [] ∧
    (∀ o ∈ [[C50_road, C50_other], [C50_half]].flatten, Fine C50_ctx o) := by
  have hub : ∀ o ∈ [[C50_road, C50_other], [C50_half]].flatten, Fine C50_ctx o := by
    intro o ho
    simp only [List.flatten_cons, List.flatten_nil, List.append_nil, List.cons_append, List.nil_append, List.mem_cons, List.not_mem_nil, or_false] at ho
    rcases ho with rfl | rfl | rfl <;> exact ⟨by simp [readOsm, C50_road, C50_other, C50_half], fun _ _ _ _ _ => ⟨50, rfl⟩⟩
  obtain ⟨t, dones, h1, h2, h3⟩ := C50_can_end C50_ctx [[C50_road, C50_other], [C50_half]] hub (by
    intro o ho hz
    simp only [List.flatten_cons, List.flatten_nil, List.append_nil, List.cons_append, List.nil_append, List.mem_cons, List.not_mem_nil, or_false] at ho
    rcases ho with rfl | rfl | rfl
    · exact ⟨by decide +kernel, by simp [readOsm, C50_road]⟩
    · exact absurd (by decide +kernel) hz
    · exact ⟨by decide +kernel, by simp [readOsm, C50_half]⟩) _ .refl
  exact ⟨t, dones, h1, h2, h3, hub⟩

/-! the conditions of `C50_read` are met: a place, from the object to the tile -/

def C50_place : OsmObj XY := ⟨7, [([1, 2, 3, 4, 5, 6, 7, 8], [3, 4, 5, 6, 7, 8, 9])], .node (some ⟨2147483649, 5⟩),
  [.approvedMin 5, .targetLayer [112], .tagAsString [1, 2, 3, 4, 5, 6, 7, 8]]⟩
def C50_f : Feature := ⟨7, 1, 5, 21, [⟨[1, 2, 3, 4, 5, 6, 7, 8], [2, 3, 4, 5, 6, 7, 8, 9]⟩], .point [⟨2147483649, 5⟩]⟩
def C50_bytes : Bytes := match serializeFeature (fun _ => []) [] true C50_f with | .ok b => b | _ => []

theorem place50_ser : serializeFeature (fun _ => []) [] true C50_f = .ok C50_bytes := by
  have : (match serializeFeature (fun _ => []) [] true C50_f with | .ok _ => true | _ => false) = true := by decide +kernel
  unfold C50_bytes
  cases h : serializeFeature (fun _ => []) [] true C50_f with
  | ok b => rfl
  | _ => rw [h] at this; cases this

theorem place50_len : C50_bytes.length = 48 := by decide +kernel

theorem place50_ok : FeatureOk C50_f ∧ (boundingBox C50_f.geometry).InRange := by
  refine ⟨⟨by decide, by decide, by decide, by decide, by simp [C50_f, GeoOk, linesOf, PtOk, CoordOk], trivial, by simp [C50_f, envelopePoints]⟩, ?_⟩
  rw [show boundingBox C50_f.geometry = ⟨⟨2147483649, 5⟩, ⟨2147483649, 5⟩⟩ by decide]; unfold Box.InRange; decide

/-- the loading of the one object ends with the feature -/
theorem place50_loaded : ∃ s : HandlerShared × List (HandlerPc XY), Reach (LoadStep C50_ctx) (loadInit [[C50_place]]) s ∧
    s.2 = [[C50_f]].map (.next [] ·) ∧ s.1.metas.queue = [] := by
  have hp : pendingFeature C50_ctx C50_place = .ok (some ([112], { C50_f with layer := 0 })) := by decide +kernel
  have h1 : Reach (ThreadStep (handlerStep C50_ctx)) (loadInit [[C50_place]])
      (⟨[(kLayerCoastlineName, 0), ([112], 1)], ⟨C50_f.metas, []⟩⟩, [.next [] [C50_f]]) := by
    refine runSched_reach (is := [0, 0, 0, 0]) .refl ?_
    have e1 : handlerStep C50_ctx ⟨layerNamesInit, ⟨[], []⟩⟩ (.next [C50_place] []) =
      some (⟨layerNamesInit, ⟨[], []⟩⟩, .update [112] { C50_f with layer := 0 } [] []) := by
      simp only [handlerStep, hp]
    show runSched (handlerStep C50_ctx) (⟨layerNamesInit, ⟨[], []⟩⟩, [.next [C50_place] []]) [0, 0, 0, 0] = _
    rw [runSched]
    simp only [List.getElem?_cons_zero, e1]
    rfl
  have h2 : ∀ s, Reach (ThreadStep (handlerStep C50_ctx)) (loadInit [[C50_place]]) s → Reach (LoadStep C50_ctx) (loadInit [[C50_place]]) s := by
    intro s h
    induction h with
    | refl => exact .refl
    | step _ r ih => exact .step ih (.thread r)
  obtain ⟨c, hc⟩ : ∃ c, addCounts [] C50_f.metas = .ok c := by
    have := C24_flush_never_throws .start C50_f.metas
    exact this
  exact ⟨(⟨[(kLayerCoastlineName, 0), ([112], 1)], ⟨[], c⟩⟩, [.next [] [C50_f]]),
    .step (h2 _ h1) (.flush ⟨_, ⟨C50_f.metas, []⟩⟩ _ C50_f.metas [] c (by simp) (by simp [C50_f]) hc), rfl, rfl⟩

example : (∃ s : HandlerShared × List (HandlerPc XY), Reach (LoadStep C50_ctx) (loadInit [[C50_place]]) s ∧ s.2 = [[C50_f]].map (.next [] ·) ∧
      s.1.metas.queue = []) ∧
    isWanted C50_ctx C50_place = true ∧ (layerName C50_ctx C50_place).length < 2 ^ 32 ∧
    (∀ m ∈ added C50_ctx C50_place, m.key.length < 2 ^ 32 ∧ m.value.length < 2 ^ 32) ∧
    ∃ si features, InsRun (fun _ => 0) cacheTiles 1000 500 (fun _ => none) ⟨[], 0⟩ ([[C50_f]].map (List.map InsCall.feature)) si ∧ .finished ∈ si.2 ∧
      si.1.pf.size < 2 ^ 64 ∧ EntriesOf si.1.db features ∧
      (∀ f ∈ [[C50_f]].flatten, FeatureOk f ∧ (boundingBox f.geometry).InRange ∧ serializeFeature (fun _ => []) [] true f = .ok C50_bytes ∧
        32 ≤ C50_bytes.length ∧ C50_bytes.length < 2 ^ 32) ∧ Shows ⟨16, 0, 5⟩ C50_f ∧ Indexed ⟨16, 0, 5⟩ C50_f := by
  refine ⟨place50_loaded, by decide +kernel, by decide +kernel, by decide +kernel, ?_⟩
  have hbox : boundingBox C50_f.geometry = ⟨⟨2147483649, 5⟩, ⟨2147483649, 5⟩⟩ := by decide
  have hplan : (InsCall.feature C50_f).plan = .ok ([⟨512, 0, 10⟩], C50_bytes) := by
    rw [InsCall.plan, hbox, show makeTileRange ⟨⟨2147483649, 5⟩, ⟨2147483649, 5⟩⟩ = .ok [⟨512, 0, 10⟩] by decide +kernel, Res.ok_bind,
      decide_eq_true (by decide), verify_true, Res.ok_bind, place50_ser]
    rfl
  have hk : keyOfTile ⟨512, 0, 10⟩ = .ok 5764607523101343744 := by decide +kernel
  have hp : ∃ p, packFeaturesPlain (fun _ => 0) [C50_bytes] = .ok p ∧ p.length < 2 ^ 32 := by
    have : (match packFeaturesPlain (fun _ => 0) [C50_bytes] with | .ok p => decide (p.length < 2 ^ 32) | _ => false) = true := by decide +kernel
    cases h : packFeaturesPlain (fun _ => 0) [C50_bytes] with
    | ok p => rw [h] at this; exact ⟨p, rfl, by simpa using this⟩
    | _ => rw [h] at this; cases this
  obtain ⟨p, hp, hpl⟩ := hp
  obtain ⟨s, h1, h2, h3, h4⟩ := run_single (crc := fun _ => 0) (upper := 1000) (lower := 500) C50_f ⟨512, 0, 10⟩ C50_bytes hplan
    (mem_cacheTiles.2 (by decide)) (by rw [place50_len]; decide) (by rw [place50_len]; decide)
    (fun k' => if k' = 5764607523101343744 then some (packRecordsSerialize [((PackFile.mk [] 0).append p).2]) else none) ((PackFile.mk [] 0).append p).1 (by
      rw [writeBucket, hk, Res.ok_bind, hp, Res.ok_bind]; rfl)
  refine ⟨s, [(5764607523101343744, packRecordsSerialize [((PackFile.mk [] 0).append p).2])], h1, h2, ?_, ⟨?_, ?_⟩, ?_, ?_⟩
  · rw [h4, append_size]; show 0 + p.length < 2 ^ 64; omega
  · simp [DbSorted]
  · intro k v
    rw [h3]
    simp only [List.mem_singleton, Prod.mk.injEq]
    constructor
    · rintro ⟨rfl, rfl⟩; exact if_pos rfl
    · intro h
      split at h
      · injection h with h; exact ⟨by assumption, h.symm⟩
      · cases h
  · intro f hf
    rw [show f = C50_f by simpa using hf]
    exact ⟨place50_ok.1, place50_ok.2, place50_ser, by rw [place50_len]; decide, by rw [place50_len]; decide⟩
  · exact C49_own_area _ place50_ok.1 _ (by decide) (by decide) (by decide) (by decide)
      ⟨2147483649, 5, by rw [hbox]; unfold Box.Has; decide, by decide⟩

end Tiles
