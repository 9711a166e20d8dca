import Verif.Verify.Distributed
import Verif.DistDbscan.Theorems
import Verif.DistDbscan.Defect
import Verif.Distributed.Spatial

/-!
# Property theorems: the verification of what the distributed `dbscan` returns (C108, C48)

The distributed verification does not check that different clusters have different labels, and the distributed `dbscan` can return labels that are not a clustering. Together
they are exact: `dbscan` never gives one label to two clusters, so the verification accepts its labels exactly if they are right.
-/

namespace ArborX.Verify

open Dbscan DistDbscan

variable {X V : Type} {w : ℕ}

/-! ## Specification -/

/-- The place of point `i` of process `r`. -/
def placeOf (D : In X V) (p : ℕ × ℕ) : Option X := (D.points p.1)[p.2]?

/-- Two points of the processes are within the radius. -/
def nearPoints (D : In X V) (p q : ℕ × ℕ) : Bool :=
  match placeOf D p, placeOf D q with
  | some x, some y => D.near x y
  | _, _ => true

/-- All points, as pairs of a process and a local index. -/
def pointsOf (D : In X V) : List (ℕ × ℕ) := allPoints D.P fun r => (D.points r).length

/-- The label of point `i` of process `r`. -/
def labelOfPoint (res : ℕ → List ℤ) (p : ℕ × ℕ) : ℤ := labelAt (res p.1) p.2

/-! ## Lemmas -/

lemma map_getD_range {α : Type} (l : List α) (d : α) : (List.range l.length).map (fun i => l.getD i d) = l := by
  refine List.ext_getElem (by simp) fun i h1 h2 => ?_
  simp [h2]

lemma map_getElem?_range {α : Type} (l : List α) : (List.range l.length).map (fun i => l[i]?) = l.map some := by
  refine List.ext_getElem (by simp) fun i h1 h2 => ?_
  have h3 : i < l.length := by simpa using h2
  simp [h3]

lemma pointsOf_place (D : In X V) : (pointsOf D).map (placeOf D) = D.all.map some := by
  unfold pointsOf allPoints In.all localPoints
  rw [List.map_flatMap, List.map_flatMap]
  refine List.flatMap_congr fun r _ => ?_
  rw [List.map_map, ← map_getElem?_range]
  rfl

lemma pointsOf_label (D : In X V) (res : ℕ → List ℤ) (h : ∀ r < D.P, (res r).length = (D.points r).length) :
    (pointsOf D).map (labelOfPoint res) = (List.range D.P).flatMap res := by
  unfold pointsOf allPoints localPoints
  rw [List.map_flatMap]
  refine List.flatMap_congr fun r hr => ?_
  beta_reduce
  rw [List.map_map, ← h r (List.mem_range.mp hr)]
  exact map_getD_range (res r) (-1)

/-- A local condition on labels, together with the soundness of the labels, is the definition of a clustering. -/
lemma isDBSCAN_iff_local {n minPts : ℕ} {near : ℕ → ℕ → Bool} {lab : ℕ → ℤ}
    (hsound : ∀ g < n, ∀ h < n, Core n near minPts g → Core n near minPts h → lab g = lab h → Chained n near minPts g h) :
    IsDBSCAN n near minPts lab ↔ ∀ g < n,
      (Core n near minPts g → 0 ≤ lab g ∧ ∀ h < n, Core n near minPts h → near g h = true → lab g = lab h) ∧
      (¬ Core n near minPts g → (NearCore n near minPts g → ∃ h < n, Core n near minPts h ∧ near g h = true ∧ lab g = lab h) ∧
        (¬ NearCore n near minPts g → lab g = -1)) := by
  constructor
  · intro H g hg
    exact ⟨fun hc => ⟨H.core g hg hc, fun h hh hch hn => (H.clusters g hg h hh hc hch).mpr (.single ⟨hg, hh, hc, hch, hn⟩)⟩,
      fun hc => ⟨fun hn => H.border g hg hc hn, fun hn => H.noise g hg hc hn⟩⟩
  · intro H
    refine ⟨fun g hg hc => ((H g hg).1 hc).1, fun g hg h hh hc hch => ⟨hsound g hg h hh hc hch, fun hch' => ?_⟩, fun g hg hc hn => ((H g hg).2 hc).1 hn,
      fun g hg hc hn => ((H g hg).2 hc).2 hn⟩
    induction hch' with
    | refl => rfl
    | tail _ hl ih => exact (ih hl.1 hl.2.2.1).trans (((H _ hl.1).1 hl.2.2.1).2 _ hl.2.1 hl.2.2.2.1 hl.2.2.2.2)

section

variable (D : In X V)

lemma pointsOf_length : (pointsOf D).length = D.all.length := by
  simpa using congrArg List.length (pointsOf_place D)

/-- The point at an index among all points. -/
def atIndex (g : ℕ) : ℕ × ℕ := (pointsOf D).getD g (0, 0)

lemma pointsOf_eq : pointsOf D = (List.range D.all.length).map (atIndex D) := by
  rw [← pointsOf_length]
  exact (map_getD_range _ _).symm

lemma mem_pointsOf {p : ℕ × ℕ} : p ∈ pointsOf D ↔ ∃ g < D.all.length, atIndex D g = p := by
  rw [pointsOf_eq, List.mem_map]
  simp only [List.mem_range]

lemma place_atIndex {g : ℕ} (hg : g < D.all.length) : placeOf D (atIndex D g) = D.all[g]? := by
  have h : ((pointsOf D).map (placeOf D))[g]? = (D.all.map some)[g]? := by rw [pointsOf_place]
  have h' : g < (pointsOf D).length := (pointsOf_length D).symm ▸ hg
  rw [List.getElem?_map, List.getElem?_map, List.getElem?_eq_getElem h', List.getElem?_eq_getElem hg, Option.map_some, Option.map_some] at h
  rw [atIndex, List.getD_eq_getElem _ _ h', List.getElem?_eq_getElem hg]
  exact Option.some.inj h

lemma near_atIndex {g h : ℕ} (hg : g < D.all.length) (hh : h < D.all.length) : nearPoints D (atIndex D g) (atIndex D h) = nearOf D.near D.all g h := by
  unfold nearPoints nearOf
  rw [place_atIndex D hg, place_atIndex D hh]
  cases D.all[g]? <;> cases D.all[h]? <;> rfl

lemma label_atIndex {res : ℕ → List ℤ} (h : ∀ r < D.P, (res r).length = (D.points r).length) {g : ℕ} (hg : g < D.all.length) :
    labelOfPoint res (atIndex D g) = labelAt ((List.range D.P).flatMap res) g := by
  have h' : g < (pointsOf D).length := (pointsOf_length D).symm ▸ hg
  rw [← pointsOf_label D res h, labelAt, atIndex, List.getD_eq_getElem _ _ h', List.getD_eq_getElem _ _ (by simpa using h'), List.getElem_map]

lemma core_atIndex {g : ℕ} (hg : g < D.all.length) :
    CorePoint (pointsOf D) (nearPoints D) D.minPts (atIndex D g) ↔ Core D.all.length (nearOf D.near D.all) D.minPts g := by
  unfold CorePoint Core
  rw [pointsOf_eq, List.filter_map, List.length_map,
    List.filter_congr (p := nearPoints D (atIndex D g) ∘ atIndex D) fun h hh => near_atIndex D hg (List.mem_range.1 hh)]

lemma nearCore_atIndex {g : ℕ} (hg : g < D.all.length) :
    (∃ q ∈ pointsOf D, CorePoint (pointsOf D) (nearPoints D) D.minPts q ∧ nearPoints D (atIndex D g) q = true) ↔
      NearCore D.all.length (nearOf D.near D.all) D.minPts g := by
  constructor
  · rintro ⟨q, hq, h1, h2⟩
    obtain ⟨h, hh, rfl⟩ := (mem_pointsOf D).1 hq
    exact ⟨h, hh, (core_atIndex D hh).1 h1, near_atIndex D hg hh ▸ h2⟩
  · rintro ⟨h, hh, h1, h2⟩
    exact ⟨_, (mem_pointsOf D).2 ⟨h, hh, rfl⟩, (core_atIndex D hh).2 h1, (near_atIndex D hg hh).trans h2⟩

end

/-! ## Theorems -/

/-- The distributed tree of C28 finds the rows that the verification needs, in every execution: point `i` of process `r` is the value `(r, i)`, and each process queries around its own
points. -/
theorem found_distributed [SemilatticeSup V] [OrderBot V] (T : Distributed.DTree (ℕ × ℕ) V w) (h : T.Valid) (size : ℕ → ℕ)
    (hst : ∀ t < T.P, (T.bottom t).stored = localPoints size t) (E : Distributed.QEnv) (hE : E.Valid) (Lt Lb : ℕ → Distributed.LEnv)
    (hLt : ∀ r < T.P, (Lt r).Valid) (hLb : ∀ r < T.P, (Lb r).Valid) (fuel : ℕ) (hft : 2 * T.P ≤ fuel) (hfb : ∀ r < T.P, 2 * (T.bottom r).n ≤ fuel)
    (user : ℕ → List (ℕ × ℕ)) (query : ℕ × ℕ → Distributed.Pred (ℕ × ℕ) V) (hfit : ∀ p, ∀ t < T.P, (query p).Fits (T.bottom t).vol) :
    ∃ res rows, T.spatial E Lt Lb fuel (fun _ a => [a]) user (fun r => (localPoints size r).map query) = some res ∧
      (∀ r < T.P, Crs.IsCrs (size r) (fun i => rows (r, i)) (res r).1 ((res r).2.map some)) ∧
      FoundAll (allPoints T.P size) (fun p => (query p).pl) rows := by
  obtain ⟨res, h1, H⟩ := Distributed.distributed_spatial T h E hE Lt Lb hLt hLb fuel hft hfb (fun _ a => [a]) user (fun r => (localPoints size r).map query)
    (fun s _ q hq t ht => by
      obtain ⟨p, -, rfl⟩ := List.mem_map.1 hq
      exact hfit p t ht)
  have hlen : ∀ r, ((localPoints size r).map query).length = size r := fun r => by simp [localPoints]
  choose! rows k1 k2 using H
  refine ⟨res, fun p => rows p.1 p.2, h1, fun r hr => ?_, fun p hp => ?_⟩
  · have := k1 r hr
    rwa [hlen] at this
  · obtain ⟨r, hr, hp'⟩ := mem_allPoints.1 hp
    obtain ⟨rfl, hi⟩ := mem_localPoints.1 hp'
    have := k2 p.1 hr p.2 (by rw [hlen]; exact hi)
    refine this.trans (List.Perm.of_eq ?_)
    rw [allPoints, List.filter_flatMap]
    refine List.flatMap_congr fun t ht => ?_
    rw [Distributed.found, hst t (List.mem_range.1 ht)]
    simp [localPoints]

open Classical in
/-- The hypotheses are met by any points with any enclosing volumes: there are trees of them and executions, and predicates that reject the volumes without points within the radius. -/
example [SemilatticeSup V] [OrderBot V] (P : ℕ) (hP : P ≤ 2 ^ 63) (size : ℕ → ℕ) (hs : ∀ r, size r ≤ 2 ^ 63) (vol : ℕ × ℕ → V) (near : ℕ × ℕ → ℕ × ℕ → Bool) :
    ∃ T : Distributed.DTree (ℕ × ℕ) V 64, T.Valid ∧ T.P = P ∧ (∀ t < T.P, (T.bottom t).stored = localPoints size t) ∧
      (∃ E : Distributed.QEnv, E.Valid) ∧ (∃ L : Distributed.LEnv, L.Valid) ∧
      ∀ p, ∀ t < T.P, (⟨near p, fun v => decide (∃ q, vol q ≤ v ∧ near p q = true)⟩ : Distributed.Pred (ℕ × ℕ) V).Fits (T.bottom t).vol := by
  let bottom : ℕ → BVH.Input (ℕ × ℕ) V 64 := fun r => ⟨size r, fun i => (r, i), vol, fun _ => 0, fun i => i⟩
  have hv : ∀ r, (bottom r).Valid := fun r => Distributed.equalCodes_valid _ rfl rfl (hs r)
  choose bs hbs using fun r => Distributed.exists_finished (bottom r) (hv r)
  let T0 : Distributed.DTree (ℕ × ℕ) V 64 := ⟨P, bottom, bs, fun _ _ => 0, fun _ i => i, fun _ => []⟩
  have ht : ∀ r, (T0.top r).Valid := fun r => Distributed.equalCodes_valid _ rfl rfl hP
  choose ts hts using fun r => Distributed.exists_finished (T0.top r) (ht r)
  refine ⟨⟨P, bottom, bs, fun _ _ => 0, fun _ i => i, ts⟩, ⟨fun r _ => ⟨hv r, hbs r⟩, fun r _ => ⟨ht r, hts r⟩⟩, rfl, fun t _ => rfl,
    ⟨⟨fun _ => Distributed.someEnv, fun _ => Distributed.someEnv, fun _ ids => (List.range ids.length).reverse,
      fun _ ids => (Distributed.exists_isSort ids.length (fun i => ids.getD i 0)).choose⟩,
      ⟨fun _ => Distributed.someEnv_valid, fun _ => Distributed.someEnv_valid, fun _ _ => List.reverse_perm _, fun _ _ => (Distributed.exists_isSort _ _).choose_spec⟩⟩,
    ⟨_, someLEnv_valid⟩, fun p t _ => ⟨fun u v huv h => ?_, fun a v hav ha => ?_⟩⟩
  · rw [decide_eq_true_eq] at h ⊢
    obtain ⟨q, h1, h2⟩ := h
    exact ⟨q, h1.trans huv, h2⟩
  · rw [decide_eq_true_eq]
    exact ⟨a, hav, ha⟩

/-- **C108 with C48.** For every number of processes, every distribution of the points and every execution of the distributed `dbscan` in which the noise ghosts are dropped
without a race: the distributed verification of the labels it returns ends, and accepts them exactly if they are a DBSCAN clustering of the points of all processes. -/
theorem verify_distributed_dbscan [SemilatticeSup V] [OrderBot V] (D : In X V) (hD : D.Geometry) (h2 : 2 ≤ D.minPts) (E : XEnv X w) (hE : E.Valid D)
    (hL : E.Local D false) (hc : ∀ r n, InOrder (E.csched r n)) (queryFuel : ℕ) (hq : 2 * D.P ≤ queryFuel)
    (rows1 rows2 : ℕ × ℕ → List (ℕ × ℕ)) (hq1 : FoundAll (pointsOf D) (nearPoints D) rows1) (hq2 : FoundAll (pointsOf D) (nearPoints D) rows2) :
    ∃ N, ∀ fuel ≥ N, ∃ res b, D.dbscan E queryFuel fuel = some res ∧
      verifyDistributed D.P (fun r => (D.points r).length) D.minPts rows1 rows2 (labelOfPoint res) = some b ∧
      (b = true ↔ IsDBSCAN D.all.length (nearOf D.near D.all) D.minPts (labelAt ((List.range D.P).flatMap res))) := by
  obtain ⟨N, H⟩ := distributed_dbscan_sound_partial D hD h2 false E hE hL hc queryFuel hq
  refine ⟨N, fun fuel hf => ?_⟩
  obtain ⟨res, h1, hlen, -, hnn, hs⟩ := H fuel hf
  have hrefl : ∀ p ∈ pointsOf D, nearPoints D p p = true := by
    intro p _
    unfold nearPoints
    cases placeOf D p with
    | none => rfl
    | some x => exact hD.refl x
  obtain ⟨b, k1, k2⟩ := verifyDistributed_partial (lab := labelOfPoint res) h2 hrefl hq1 hq2
  refine ⟨res, b, h1, k1, k2.trans ?_⟩
  rw [isDBSCAN_iff_local]
  · constructor
    · intro K g hg
      have K' := K (atIndex D g) ((mem_pointsOf D).2 ⟨g, hg, rfl⟩)
      refine ⟨fun hcg => ?_, fun hcg => ⟨fun hn => ?_, fun hn => ?_⟩⟩
      · obtain ⟨a1, a2⟩ := K'.1 ((core_atIndex D hg).2 hcg)
        rw [label_atIndex D hlen hg] at a1
        refine ⟨a1, fun h hh hch hn => ?_⟩
        have := a2 _ ((mem_pointsOf D).2 ⟨h, hh, rfl⟩) ((core_atIndex D hh).2 hch) ((near_atIndex D hg hh).trans hn)
        rwa [label_atIndex D hlen hg, label_atIndex D hlen hh] at this
      · obtain ⟨q, hq', a1, a2, a3⟩ := (K'.2 (mt (core_atIndex D hg).1 hcg)).1 ((nearCore_atIndex D hg).2 hn)
        obtain ⟨h, hh, rfl⟩ := (mem_pointsOf D).1 hq'
        rw [label_atIndex D hlen hg, label_atIndex D hlen hh] at a3
        exact ⟨h, hh, (core_atIndex D hh).1 a1, near_atIndex D hg hh ▸ a2, a3⟩
      · have := (K'.2 (mt (core_atIndex D hg).1 hcg)).2 (mt (nearCore_atIndex D hg).1 hn)
        rwa [label_atIndex D hlen hg] at this
    · intro K p hp
      obtain ⟨g, hg, rfl⟩ := (mem_pointsOf D).1 hp
      have K' := K g hg
      refine ⟨fun hcg => ?_, fun hcg => ⟨fun hn => ?_, fun hn => ?_⟩⟩
      · obtain ⟨a1, a2⟩ := K'.1 ((core_atIndex D hg).1 hcg)
        rw [label_atIndex D hlen hg]
        refine ⟨a1, fun q hq' hch hn => ?_⟩
        obtain ⟨h, hh, rfl⟩ := (mem_pointsOf D).1 hq'
        rw [label_atIndex D hlen hh]
        exact a2 h hh ((core_atIndex D hh).1 hch) (near_atIndex D hg hh ▸ hn)
      · obtain ⟨h, hh, a1, a2, a3⟩ := (K'.2 (mt (core_atIndex D hg).2 hcg)).1 ((nearCore_atIndex D hg).1 hn)
        refine ⟨_, (mem_pointsOf D).2 ⟨h, hh, rfl⟩, (core_atIndex D hh).2 a1, (near_atIndex D hg hh).trans a2, ?_⟩
        rw [label_atIndex D hlen hg, label_atIndex D hlen hh, a3]
      · rw [label_atIndex D hlen hg]
        exact (K'.2 (mt (core_atIndex D hg).2 hcg)).2 (mt (nearCore_atIndex D hg).2 hn)
  · intro g hg h hh hcg hch he
    obtain ⟨c, c', a1, a2, a3⟩ := hs g hg h hh (by have := hnn g hg hcg; omega) he
    rw [← a1.2.2.2 hcg, ← a2.2.2.2 hch]
    exact a3

/-- What the distributed query finds. -/
def rowsOf (D : In X V) (p : ℕ × ℕ) : List (ℕ × ℕ) := (pointsOf D).filter (nearPoints D p)

/-- The hypotheses are met: by the six processes of `distributed_dbscan_defect`, whose labels are wrong and rejected, -/
example : lineIn.Geometry ∧ 2 ≤ lineIn.minPts ∧ lineEnv.Valid lineIn ∧ lineEnv.Local lineIn false ∧ (∀ r n, InOrder (lineEnv.csched r n)) ∧ 2 * lineIn.P ≤ 12 ∧
    FoundAll (pointsOf lineIn) (nearPoints lineIn) (rowsOf lineIn) ∧
    (lineIn.dbscan lineEnv 12 10).bind (fun res => verifyDistributed lineIn.P (fun r => (lineIn.points r).length) lineIn.minPts (rowsOf lineIn) (rowsOf lineIn) (labelOfPoint res)) = some false :=
  ⟨lineOf_geometry _, le_rfl, lineEnv_valid, lineEnv_local _, lineEnv_inOrder, le_rfl, fun _ _ => List.Perm.refl _, by decide +kernel⟩

/-- and by two processes whose labels are right and accepted. -/
example : pairIn.Geometry ∧ 2 ≤ pairIn.minPts ∧ lineEnv.Valid pairIn ∧ lineEnv.Local pairIn false ∧ (∀ r n, InOrder (lineEnv.csched r n)) ∧ 2 * pairIn.P ≤ 4 ∧
    FoundAll (pointsOf pairIn) (nearPoints pairIn) (rowsOf pairIn) ∧
    (pairIn.dbscan lineEnv 4 10).bind (fun res => verifyDistributed pairIn.P (fun r => (pairIn.points r).length) pairIn.minPts (rowsOf pairIn) (rowsOf pairIn) (labelOfPoint res)) = some true :=
  ⟨lineOf_geometry _, le_rfl, pairEnv_valid, lineEnv_local _, lineEnv_inOrder, le_rfl, fun _ _ => List.Perm.refl _, by decide +kernel⟩

end ArborX.Verify
