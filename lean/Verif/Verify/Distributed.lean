import Verif.Verify.Lemmas
import Mathlib.Logic.Relation

/-!
# Property theorems: the verification of distributed clusterings (C108)
-/

namespace ArborX.Verify

/-- All points: point `i` of process `r` is `(r, i)`. -/
def allPoints (ranks : ℕ) (size : ℕ → ℕ) : List (ℕ × ℕ) := (List.range ranks).flatMap (localPoints size)

lemma mem_localPoints {size : ℕ → ℕ} {r : ℕ} {p : ℕ × ℕ} : p ∈ localPoints size r ↔ p.1 = r ∧ p.2 < size r := by
  rw [localPoints, List.mem_map]
  constructor
  · rintro ⟨i, hi, rfl⟩
    exact ⟨rfl, List.mem_range.1 hi⟩
  · rintro ⟨rfl, h⟩
    exact ⟨p.2, List.mem_range.2 h, rfl⟩

lemma mem_allPoints {ranks : ℕ} {size : ℕ → ℕ} {p : ℕ × ℕ} : p ∈ allPoints ranks size ↔ ∃ r < ranks, p ∈ localPoints size r := by
  rw [allPoints, List.mem_flatMap]
  exact ⟨fun ⟨r, h, h'⟩ => ⟨r, List.mem_range.1 h, h'⟩, fun ⟨r, h, h'⟩ => ⟨r, List.mem_range.2 h, h'⟩⟩

lemma allPoints_nodup (ranks : ℕ) (size : ℕ → ℕ) : (allPoints ranks size).Nodup := by
  rw [allPoints, List.nodup_flatMap]
  refine ⟨fun r _ => List.nodup_range.map fun a b h => (Prod.mk.inj h).2, ?_⟩
  refine List.nodup_range.imp fun {a b} hab p h1 h2 => hab ?_
  rw [← (mem_localPoints.1 h1).1, (mem_localPoints.1 h2).1]

section

variable {V : Type} (pts : List V) (near : V → V → Bool) (minPts : ℕ)

/-- A core point has at least `minPts` points within the radius, itself included, on all processes together. -/
def CorePoint (p : V) : Prop := minPts ≤ (pts.filter (near p)).length

/-- What a clustering in the sense of DBSCAN must satisfy, as `Dbscan.IsDBSCAN` for any type of points. -/
structure IsClustering (lab : V → ℤ) : Prop where
  core : ∀ p ∈ pts, CorePoint pts near minPts p → 0 ≤ lab p
  clusters : ∀ p ∈ pts, ∀ q ∈ pts, CorePoint pts near minPts p → CorePoint pts near minPts q →
    (lab p = lab q ↔ Relation.ReflTransGen (fun a b => a ∈ pts ∧ b ∈ pts ∧ CorePoint pts near minPts a ∧ CorePoint pts near minPts b ∧ near a b = true) p q)
  border : ∀ p ∈ pts, ¬CorePoint pts near minPts p → (∃ q ∈ pts, CorePoint pts near minPts q ∧ near p q = true) →
    ∃ q ∈ pts, CorePoint pts near minPts q ∧ near p q = true ∧ lab p = lab q
  noise : ∀ p ∈ pts, ¬CorePoint pts near minPts p → (¬∃ q ∈ pts, CorePoint pts near minPts q ∧ near p q = true) → lab p = -1

end

variable {ranks minPts : ℕ} {size : ℕ → ℕ} {near : ℕ × ℕ → ℕ × ℕ → Bool} {rows1 rows2 : ℕ × ℕ → List (ℕ × ℕ)} {lab : ℕ × ℕ → ℤ}

/-- What the distributed query returns: the row of each point lists the points of all processes within the radius, in any order. -/
def FoundAll (pts : List (ℕ × ℕ)) (near : ℕ × ℕ → ℕ × ℕ → Bool) (rows : ℕ × ℕ → List (ℕ × ℕ)) : Prop := ∀ p ∈ pts, (rows p).Perm (pts.filter (near p))

/-- What one process finds. -/
lemma localSuccess_spec (hmin : 2 ≤ minPts) (hrefl : ∀ p ∈ allPoints ranks size, near p p = true)
    (hq1 : FoundAll (allPoints ranks size) near rows1) (hq2 : FoundAll (allPoints ranks size) near rows2) (r : ℕ) (hr : r < ranks) :
    ∃ b, localSuccess size minPts rows1 rows2 lab r = some b ∧ (b = true ↔ ∀ p ∈ localPoints size r,
      (CorePoint (allPoints ranks size) near minPts p → 0 ≤ lab p ∧ ∀ q ∈ allPoints ranks size, CorePoint (allPoints ranks size) near minPts q → near p q = true → lab p = lab q) ∧
      (¬CorePoint (allPoints ranks size) near minPts p →
        ((∃ q ∈ allPoints ranks size, CorePoint (allPoints ranks size) near minPts q ∧ near p q = true) →
          ∃ q ∈ allPoints ranks size, CorePoint (allPoints ranks size) near minPts q ∧ near p q = true ∧ lab p = lab q) ∧
        ((¬∃ q ∈ allPoints ranks size, CorePoint (allPoints ranks size) near minPts q ∧ near p q = true) → lab p = -1))) := by
  have hsub : ∀ p ∈ localPoints size r, p ∈ allPoints ranks size := fun p hp => mem_allPoints.2 ⟨r, hr, hp⟩
  have hmem : ∀ p ∈ localPoints size r, ∀ q, q ∈ rows2 p ↔ q ∈ allPoints ranks size ∧ near p q = true := fun p hp q => by
    rw [(hq2 p (hsub p hp)).mem_iff, List.mem_filter]
  have hcore : ∀ p ∈ allPoints ranks size, (decide (minPts ≤ (rows1 p).length) = true ↔ CorePoint (allPoints ranks size) near minPts p) := fun p hp => by
    rw [decide_eq_true_eq, (hq1 p hp).length_eq]
    rfl
  have hcore' : ∀ p ∈ allPoints ranks size, (decide (minPts ≤ (rows1 p).length) = false ↔ ¬CorePoint (allPoints ranks size) near minPts p) := fun p hp => by
    rw [← hcore p hp, Bool.not_eq_true]
  obtain ⟨R, hR, H⟩ := allRows_spec (localPoints size r) minPts (fun j => (rows1 j).length) lab rows2
    (fun p hp => (hq2 p (hsub p hp)).nodup_iff.2 ((allPoints_nodup _ _).filter _)) (fun p hp => (hmem p hp p).2 ⟨hsub p hp, hrefl p (hsub p hp)⟩)
  have hex : ∀ p ∈ localPoints size r, (∃ q ∈ rows2 p, decide (minPts ≤ (rows1 q).length) = true) ↔ ∃ q ∈ allPoints ranks size, CorePoint (allPoints ranks size) near minPts q ∧ near p q = true := by
    intro p hp
    constructor
    · rintro ⟨q, hq, h⟩
      obtain ⟨h1, h2⟩ := (hmem p hp q).1 hq
      exact ⟨q, h1, (hcore q h1).1 h, h2⟩
    · rintro ⟨q, h1, h2, h3⟩
      exact ⟨q, (hmem p hp q).2 ⟨h1, h3⟩, (hcore q h1).2 h2⟩
  refine ⟨_, by rw [localSuccess, if_neg (by omega), hR, Option.map_some], ?_⟩
  rw [Bool.and_eq_true, Bool.and_eq_true, Bool.and_eq_true, coreNonnegative_iff H, coresShare_iff H, noisePoints_iff H, borderPoints_iff H]
  constructor
  · rintro ⟨⟨⟨h1, h2⟩, h3⟩, h4⟩ p hp
    refine ⟨fun hc => ⟨h1 p hp ((hcore p (hsub p hp)).2 hc), fun q hq hcq hn => h2 p hp ((hcore p (hsub p hp)).2 hc) q ((hmem p hp q).2 ⟨hq, hn⟩) ((hcore q hq).2 hcq)⟩,
      fun hc => ⟨fun h => ?_, fun h => h3 p hp ((hcore' p (hsub p hp)).2 hc) fun h' => h ((hex p hp).1 h')⟩⟩
    obtain ⟨q, hq, h5, h6⟩ := h4 p hp ((hcore' p (hsub p hp)).2 hc) ((hex p hp).2 h)
    obtain ⟨h7, h8⟩ := (hmem p hp q).1 hq
    exact ⟨q, h7, (hcore q h7).1 h5, h8, h6⟩
  · intro h
    refine ⟨⟨⟨fun p hp hc => ((h p hp).1 ((hcore p (hsub p hp)).1 hc)).1, fun p hp hc q hq hcq => ?_⟩, fun p hp hc hn => ?_⟩, fun p hp hc hn => ?_⟩
    · obtain ⟨h1, h2⟩ := (hmem p hp q).1 hq
      exact ((h p hp).1 ((hcore p (hsub p hp)).1 hc)).2 q h1 ((hcore q h1).1 hcq) h2
    · exact ((h p hp).2 ((hcore' p (hsub p hp)).1 hc)).2 fun h' => hn ((hex p hp).2 h')
    · obtain ⟨q, h1, h2, h3, h4⟩ := ((h p hp).2 ((hcore' p (hsub p hp)).1 hc)).1 ((hex p hp).1 hn)
      exact ⟨q, (hmem p hp q).2 ⟨h1, h3⟩, (hcore q h1).2 h2, h4⟩

lemma mapM_all (f : ℕ → Option Bool) (P : ℕ → Prop) (l : List ℕ) (h : ∀ r ∈ l, ∃ b, f r = some b ∧ (b = true ↔ P r)) :
    ∃ bs, l.mapM f = some bs ∧ (bs.all id = true ↔ ∀ r ∈ l, P r) := by
  induction l with
  | nil => exact ⟨[], rfl, by simp⟩
  | cons a l ih =>
    obtain ⟨b, h1, h2⟩ := h a List.mem_cons_self
    obtain ⟨bs, h3, h4⟩ := ih fun r hr => h r (List.mem_cons_of_mem a hr)
    refine ⟨b :: bs, by rw [List.mapM_cons, h1, h3]; rfl, ?_⟩
    rw [List.all_cons, Bool.and_eq_true, h4, List.forall_mem_cons, ← h2]
    rfl

/-- **C108**, distributed.  Whatever the number of processes, the distribution of the points and the order of the results: the verification accepts the labels exactly if core points have
nonnegative labels, core points near each other the same one, border points that of a core point near them and noise points -1.  Core points count the points of all processes.

Missing for the full statement: that core points which are not connected have different labels, which the code does not check (`verifyDistributed_wrong`). -/
theorem verifyDistributed_partial (hmin : 2 ≤ minPts) (hrefl : ∀ p ∈ allPoints ranks size, near p p = true)
    (hq1 : FoundAll (allPoints ranks size) near rows1) (hq2 : FoundAll (allPoints ranks size) near rows2) :
    ∃ b, verifyDistributed ranks size minPts rows1 rows2 lab = some b ∧ (b = true ↔ ∀ p ∈ allPoints ranks size,
      (CorePoint (allPoints ranks size) near minPts p → 0 ≤ lab p ∧ ∀ q ∈ allPoints ranks size, CorePoint (allPoints ranks size) near minPts q → near p q = true → lab p = lab q) ∧
      (¬CorePoint (allPoints ranks size) near minPts p →
        ((∃ q ∈ allPoints ranks size, CorePoint (allPoints ranks size) near minPts q ∧ near p q = true) →
          ∃ q ∈ allPoints ranks size, CorePoint (allPoints ranks size) near minPts q ∧ near p q = true ∧ lab p = lab q) ∧
        ((¬∃ q ∈ allPoints ranks size, CorePoint (allPoints ranks size) near minPts q ∧ near p q = true) → lab p = -1))) := by
  obtain ⟨bs, h1, h2⟩ := mapM_all (localSuccess size minPts rows1 rows2 lab) _ (List.range ranks)
    fun r hr => localSuccess_spec (lab := lab) hmin hrefl hq1 hq2 r (List.mem_range.1 hr)
  refine ⟨_, by rw [verifyDistributed, h1, Option.map_some], h2.trans ⟨fun h p hp => ?_, fun h r hr p hp => h p (mem_allPoints.2 ⟨r, List.mem_range.1 hr, hp⟩)⟩⟩
  obtain ⟨r, hr, hp'⟩ := mem_allPoints.1 hp
  exact h r (List.mem_range.2 hr) p hp'

/-- Every valid clustering is accepted. -/
theorem verifyDistributed_accepts (hmin : 2 ≤ minPts) (hrefl : ∀ p ∈ allPoints ranks size, near p p = true)
    (hq1 : FoundAll (allPoints ranks size) near rows1) (hq2 : FoundAll (allPoints ranks size) near rows2) (h : IsClustering (allPoints ranks size) near minPts lab) :
    verifyDistributed ranks size minPts rows1 rows2 lab = some true := by
  obtain ⟨b, h1, h2⟩ := verifyDistributed_partial (lab := lab) hmin hrefl hq1 hq2
  rw [h1, h2.2 fun p hp => ⟨fun hc => ⟨h.core p hp hc, fun q hq hcq hn => (h.clusters p hp q hq hc hcq).2 (.single ⟨hp, hq, hc, hcq, hn⟩)⟩,
    fun hc => ⟨h.border p hp hc, h.noise p hp hc⟩⟩]

/-- Two processes with a pair of points each: at 0 and 1, and at 10 and 11. -/
def pairPlace (p : ℕ × ℕ) : ℤ := 10 * p.1 + p.2

/-- Within distance 1. -/
def pairNear (p q : ℕ × ℕ) : Bool := decide ((pairPlace p - pairPlace q).natAbs ≤ 1)

/-- The rows of the two pairs. -/
def pairRows (p : ℕ × ℕ) : List (ℕ × ℕ) := (allPoints 2 fun _ => 2).filter (pairNear p)

/-- The distributed verification accepts wrong labels: two pairs of points far from each other have the same label.  Different labels, which are right, are accepted; labels that differ within a pair are not. -/
theorem verifyDistributed_wrong :
    FoundAll (allPoints 2 fun _ => 2) pairNear pairRows ∧
    verifyDistributed 2 (fun _ => 2) 2 pairRows pairRows (fun _ => 0) = some true ∧
    ¬IsClustering (allPoints 2 fun _ => 2) pairNear 2 (fun _ => 0) ∧
    verifyDistributed 2 (fun _ => 2) 2 pairRows pairRows (fun p => p.1) = some true ∧
    IsClustering (allPoints 2 fun _ => 2) pairNear 2 (fun p => p.1) ∧
    verifyDistributed 2 (fun _ => 2) 2 pairRows pairRows (fun p => p.2) = some false := by
  have hcore : ∀ p ∈ allPoints 2 fun _ => 2, CorePoint (allPoints 2 fun _ => 2) pairNear 2 p := by unfold CorePoint; decide +kernel
  have hone : ∀ p ∈ allPoints 2 fun _ => 2, ∀ q ∈ allPoints 2 fun _ => 2, pairNear p q = true → p.1 = q.1 := by decide +kernel
  have hone' : ∀ p ∈ allPoints 2 fun _ => 2, ∀ q ∈ allPoints 2 fun _ => 2, p.1 = q.1 → pairNear p q = true := by decide +kernel
  have hsame : ∀ p q, Relation.ReflTransGen (fun a b => a ∈ (allPoints 2 fun _ => 2) ∧ b ∈ (allPoints 2 fun _ => 2) ∧ CorePoint (allPoints 2 fun _ => 2) pairNear 2 a ∧
      CorePoint (allPoints 2 fun _ => 2) pairNear 2 b ∧ pairNear a b = true) p q → p.1 = q.1 := by
    intro p q h
    induction h with
    | refl => rfl
    | tail _ h ih => exact ih.trans (hone _ h.1 _ h.2.1 h.2.2.2.2)
  refine ⟨fun p _ => List.Perm.refl _, by decide +kernel, fun h => ?_, by decide +kernel, ⟨fun p _ _ => by simp, fun p hp q hq hcp hcq => ⟨fun h => ?_, fun h => ?_⟩, fun p hp hc => absurd (hcore p hp) hc, fun p hp hc => absurd (hcore p hp) hc⟩, by decide +kernel⟩
  · have h0 : ((0, 0) : ℕ × ℕ) ∈ allPoints 2 fun _ => 2 := by decide +kernel
    have h1 : ((1, 0) : ℕ × ℕ) ∈ allPoints 2 fun _ => 2 := by decide +kernel
    exact absurd (hsame _ _ ((h.clusters _ h0 _ h1 (hcore _ h0) (hcore _ h1)).1 rfl)) (by decide)
  · exact .single ⟨hp, hq, hcp, hcq, hone' p hp q hq (by exact_mod_cast h)⟩
  · exact_mod_cast hsame p q h

end ArborX.Verify
