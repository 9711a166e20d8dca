import Verif.DistDbscan.Compress
import Verif.DistDbscan.Spec
import Verif.DistDbscan.MergeLemmas
import Verif.Distributed.Spatial

/-!
# Lemmas: the ghosts of a process (C48)
-/

namespace ArborX.DistDbscan

open Distributed BVH Traversal

variable {X V : Type} {w : ℕ} [SemilatticeSup V] [OrderBot V]

/-- The geometry: `near` is symmetric and reflexive; a point within the radius of a box is so for larger boxes, and then its own box is
close to it; a point near a point of a box is within the forwarding radius of the box. -/
structure In.Base (D : In X V) : Prop where
  symm : ∀ p q, D.near p q = D.near q p
  refl : ∀ p, D.near p p = true
  hit_mono : ∀ p u v, u ≤ v → D.hit p u = true → D.hit p v = true
  close : ∀ p u v, D.boxOf p ≤ v → D.hit p u = true → D.close u v = true
  one : ∀ p q v, D.near p q = true → D.boxOf q ≤ v → D.hit p v = true

/-- If `core_min_size > 2` then in addition, among the points of all processes, the points near points near a point of a box are within the
forwarding radius of the box. -/
structure In.Geometry (D : In X V) : Prop extends In.Base D where
  two : D.minPts ≠ 2 → ∀ p ∈ D.all, ∀ q ∈ D.all, ∀ x ∈ D.all, ∀ v, D.near p q = true → D.near q x = true → D.boxOf x ≤ v → D.hit p v = true

/-- The library and the scheduler do their job: orders are orders, sorts sort, all threads finish, the tree
constructions finish. -/
structure XEnv.Valid (E : XEnv X w) (D : In X V) : Prop where
  scan : ∀ r n, (E.scan r n).Perm (List.range n)
  tree : ∀ r < D.P, ∀ prims, D.prims E r = some prims → (D.tree E prims r).Valid ∧ (D.tree E prims r).Finished (E.tsched r)
  query : ∀ r < D.P, (E.query r).Valid
  fwd : ∀ i, (E.fwd i).Valid
  threads : ∀ r n, Threads n (E.threads r n) (E.cut r n) (E.csched r n)
  back : ∀ i, (E.back i).Valid
  sort : ∀ r ids, Perm.IsSort ids.length (fun i => ids.getD i 0) (E.sort r ids)
  offsetOrder : ∀ r n, (E.offsetOrder r n).Perm (List.range n)
  mergeOrder : ∀ r n, (E.mergeOrder r n).Perm (List.range n)
  merge : E.merge.Valid

omit [OrderBot V] in
lemma foldl_sup_le {β : Type} (f : β → V) (l : List β) (b : V) : b ≤ l.foldl (fun b x => b ⊔ f x) b ∧ ∀ x ∈ l, f x ≤ l.foldl (fun b x => b ⊔ f x) b := by
  induction l generalizing b with
  | nil => simp
  | cons a l ih =>
    rw [List.foldl_cons]
    obtain ⟨h1, h2⟩ := ih (b ⊔ f a)
    refine ⟨le_sup_left.trans h1, fun x hx => ?_⟩
    rcases List.mem_cons.mp hx with rfl | hx
    · exact le_sup_right.trans h1
    · exact h2 x hx

lemma In.box_le (D : In X V) {r : ℕ} {p : X} (hp : p ∈ D.points r) : D.boxOf p ≤ D.box r :=
  (foldl_sup_le D.boxOf (D.points r) ⊥).2 p hp

lemma prims_spec (D : In X V) (E : XEnv X w) (hE : ∀ r n, (E.scan r n).Perm (List.range n)) (r : ℕ) :
    D.prims E r = some ((List.range D.P).filter (fun i => decide (i ≠ r ∧ D.close (D.box i) (D.box r) = true))) := by
  unfold In.prims
  have hle : Crs.scan (fun i => (if i = r ∨ D.close (D.box i) (D.box r) = false then ([] : List ℕ) else [i]).length) D.P ≤ D.P := by
    generalize D.P = n
    induction n with
    | zero => exact le_rfl
    | succ n ih =>
      simp only [Crs.scan]
      have : (if n = r ∨ D.close (D.box n) (D.box r) = false then ([] : List ℕ) else [n]).length ≤ 1 := by split_ifs <;> simp
      omega
  rw [scanWrites_spec (hE r D.P) hle]
  congr 1
  generalize List.range D.P = l
  induction l with
  | nil => rfl
  | cons a l ih =>
    rw [List.flatMap_cons, ih, List.filter_cons]
    by_cases h : a = r ∨ D.close (D.box a) (D.box r) = false
    · rw [if_pos h, if_neg]
      · rfl
      · rcases h with h | h <;> simp [h]
    · rw [if_neg h, if_pos]
      · rfl
      · push Not at h; simpa using h

/-- The processes a point is sent to. -/
lemma ranksTo_spec (D : In X V) (hD : D.Base) (E : XEnv X w) (hE : E.Valid D) (fuel : ℕ) (hfuel : 2 * D.P ≤ fuel) :
    ∃ t, collect D.P (D.ranksTo E fuel) = some t ∧ ∃ rk : ℕ → ℕ → List ℤ, ∀ s < D.P,
        (t s).2 = (List.range (D.points s).length).flatMap (rk s) ∧
        (t s).1 = offsetsFrom 0 ((List.range (D.points s).length).map (fun q => (rk s q).length)) ∧
        ∀ q (hqs : q < (D.points s).length), (rk s q).Nodup ∧
          ∀ d, d ∈ rk s q ↔ ∃ i : ℕ, i < D.P ∧ i ≠ s ∧ d = i ∧ D.hit (D.points s)[q] (D.box i) = true := by
  set prims : ℕ → List ℕ := fun r => (List.range D.P).filter (fun i => decide (i ≠ r ∧ D.close (D.box i) (D.box r) = true)) with hprims
  have hpn : ∀ r, (prims r).Nodup := fun r => List.nodup_range.filter _
  have hpl : ∀ r, (prims r).length ≤ D.P := fun r => by
    have := List.length_filter_le (fun i => decide (i ≠ r ∧ D.close (D.box i) (D.box r) = true)) (List.range D.P)
    simpa [hprims] using this
  have hstored : ∀ r, (D.tree E (prims r) r).stored = prims r := by
    intro r
    unfold Input.stored In.tree
    apply List.ext_getElem
    · simp
    · intro i h1 h2
      simp [List.getD_eq_getElem?_getD, h2]
  have hc : ∀ r (p : X), ∃ calls, r < D.P → p ∈ D.points r →
      spatialQuery ((D.tree E (prims r) r).build (E.tsched r)) (fun i => D.hit p (D.box i)) (D.hit p) (fun _ => false) fuel = .done calls ∧
      calls.Perm ((prims r).filter (fun i => D.hit p (D.box i))) := by
    intro r p
    by_cases hr : r < D.P
    · by_cases hm : p ∈ D.points r
      · obtain ⟨h1, h2⟩ := hE.tree r hr _ (prims_spec D E hE.scan r)
        obtain ⟨c, h1, h2⟩ := spatial_query_exact (D.tree E (prims r) r) h1 (fun i => D.hit p (D.box i)) (D.hit p)
          (fun a v hv ha => hD.hit_mono p _ _ hv ha) (E.tsched r) h2 fuel (by
            have := hpl r
            show 2 * (prims r).length ≤ fuel
            omega)
        rw [hstored] at h2
        exact ⟨c, fun _ _ => ⟨h1, h2⟩⟩
      · exact ⟨[], fun _ h => absurd h hm⟩
    · exact ⟨[], fun h => absurd h hr⟩
  choose calls hcalls using hc
  obtain ⟨t, ht1, ht2⟩ := collect_some (P := D.P) (f := D.ranksTo E fuel) (fun r hr => by
    unfold In.ranksTo
    rw [prims_spec D E hE.scan r, Option.bind_some]
    exact crsQuery_spec .spatial (fun _ => 0) (E.query r) (hE.query r hr) _ (calls r) _ [] (D.points r) (fun q hm => (hcalls r q hr hm).1))
  refine ⟨t, ht1, fun s q => match (D.points s)[q]? with | some p => (calls s p).map (fun i : ℕ => (i : ℤ)) | none => [], ?_⟩
  intro s hs
  have hflat : ∀ p : X, (calls s p).flatMap (fun i : ℕ => [(i : ℤ)]) = (calls s p).map (fun i : ℕ => (i : ℤ)) := by
    intro p
    induction calls s p with
    | nil => rfl
    | cons a l ih => simp [ih]
  have hmap : ∀ {β : Type} (f : X → β) (d : β), (D.points s).map f =
      (List.range (D.points s).length).map (fun q => match (D.points s)[q]? with | some p => f p | none => d) := by
    intro β f d
    apply List.ext_getElem
    · simp
    · intro i h1 h2
      have : i < (D.points s).length := by simpa using h1
      simp [this]
  refine ⟨?_, ?_, ?_⟩
  · rw [ht2 s hs]
    simp only
    rw [List.flatMap_def, List.flatMap_def, hmap _ []]
    congr 1
    apply List.map_congr_left
    intro q _
    split
    · exact hflat _
    · rfl
  · rw [ht2 s hs]
    simp only
    congr 1
    rw [hmap _ 0]
    apply List.map_congr_left
    intro q _
    split
    · rw [hflat]
    · rfl
  · intro q hqs
    have hm := List.getElem_mem hqs
    obtain ⟨-, hp⟩ := hcalls s (D.points s)[q] hs hm
    beta_reduce
    rw [List.getElem?_eq_getElem hqs]
    simp only
    constructor
    · apply List.Nodup.map (fun a b hab => by simpa using hab)
      exact hp.nodup_iff.mpr ((hpn s).filter _)
    · intro d
      rw [List.mem_map]
      constructor
      · rintro ⟨i, hi, rfl⟩
        have := hp.mem_iff.mp hi
        rw [List.mem_filter, hprims, List.mem_filter, List.mem_range, decide_eq_true_eq] at this
        exact ⟨i, this.1.1, this.1.2.1, rfl, this.2⟩
      · rintro ⟨i, hi, his, rfl, hpv⟩
        refine ⟨i, hp.mem_iff.mpr (List.mem_filter.mpr ⟨?_, hpv⟩), rfl⟩
        rw [hprims, List.mem_filter, List.mem_range, decide_eq_true_eq]
        exact ⟨hi, his, hD.close _ _ _ (D.box_le hm) hpv⟩

/-- The ghosts of process `t`: pairs of a process and an index there. -/
lemma ghosts_spec (D : In X V) (hD : D.Base) (E : XEnv X w) (hE : E.Valid D) (fuel : ℕ) (hfuel : 2 * D.P ≤ fuel) :
    ∃ gp gi gr, D.ghosts E fuel = some (gp, gi, gr) ∧ ∃ F : ℕ → List (ℕ × ℕ), ∀ t < D.P,
      (gp t).map some = (F t).map (fun e => (D.points e.1)[e.2]?) ∧ gi t = (F t).map (fun e => e.2) ∧
      gr t = (F t).map (fun e => (e.1 : ℤ)) ∧ (F t).Nodup ∧
      ∀ s q, (s, q) ∈ F t ↔ s < D.P ∧ s ≠ t ∧ ∃ p, (D.points s)[q]? = some p ∧ D.hit p (D.box t) = true := by
  obtain ⟨t, ht1, rk, hrk⟩ := ranksTo_spec D hD E hE fuel hfuel
  set n : ℕ → ℕ := fun s => (D.points s).length with hn
  have hr' : ∀ s < D.P, ∀ d ∈ (t s).2, 0 ≤ d ∧ d < D.P := by
    intro s hs d hdm
    rw [(hrk s hs).1] at hdm
    obtain ⟨q, h1, h2⟩ := List.mem_flatMap.mp hdm
    obtain ⟨i, hi, -, rfl, -⟩ := (((hrk s hs).2.2 q (List.mem_range.mp h1)).2 d).mp h2
    omega
  obtain ⟨plan, hp1, hp2⟩ := communicate_ranks (hE.fwd 0) hr'
  have hd : ∀ s < D.P, (fun r => (t r).2) s = (List.range (n s)).flatMap (rk s) := fun s hs => (hrk s hs).1
  have hlen : ∀ {Y : Type} (ex : ℕ → List Y) (y : ℕ → ℕ → Y),
      (∀ s < D.P, ex s = (List.range (n s)).flatMap (fun q => List.replicate (rk s q).length (y s q))) →
      ∀ s < D.P, (ex s).length = (t s).2.length := by
    intro Y ex y hex s hs
    rw [hex s hs, (hrk s hs).1]
    exact flatMap_length_congr _ _ _ (fun q _ => by simp)
  by_cases hX : Nonempty X
  swap
  · -- no points at all
    have hnil : ∀ l : List X, l = [] := fun l => by
      cases l with
      | nil => rfl
      | cons a l => exact absurd ⟨a⟩ hX
    have he : ∀ {Y : Type} (x : ℕ → ℕ → Option Y) (o : ℕ → ℕ → List ℕ), ∃ ex : ℕ → List Y, collect D.P (fun r => exportRows (o r (D.points r).length) (t r).1 (x r)) = some ex ∧
        ∀ s < D.P, ex s = [] := by
      intro Y x o
      apply collect_some
      intro s hs
      rw [(hrk s hs).2.1, hnil (D.points s)]
      rfl
    have ht2 : ∀ s < D.P, (t s).2 = [] := fun s hs => by rw [(hrk s hs).1, hnil (D.points s)]; rfl
    have hdel : ∀ {Y : Type} (ex : ℕ → List Y) (r : ℕ), (∀ s < D.P, ex s = []) → deliver D.P (fun r => (t r).2) ex r = [] := by
      intro Y ex r hex
      unfold deliver
      rw [List.flatMap_eq_nil_iff]
      intro s hs
      rw [hex s (List.mem_range.mp hs)]
      rfl
    obtain ⟨ep, he1, he2⟩ := he (fun r q => (D.points r)[q]?) (fun r m => (E.fwd 1).order r m)
    obtain ⟨ei, hi1, hi2⟩ := he (fun r q => some q) (fun r m => (E.fwd 2).order r m)
    obtain ⟨gp, hg1, hg2⟩ := hp2 (E.fwd 1) (hE.fwd 1) X ep (fun s hs => by rw [he2 s hs, ht2 s hs]; rfl)
    obtain ⟨gi, hg3, hg4⟩ := hp2 (E.fwd 2) (hE.fwd 2) ℕ ei (fun s hs => by rw [hi2 s hs, ht2 s hs]; rfl)
    obtain ⟨gr, hg5, hg6⟩ := hp2 (E.fwd 3) (hE.fwd 3) ℤ (fun r => List.replicate (t r).2.length (r : ℤ)) (fun s hs => by simp)
    refine ⟨gp, gi, gr, ?_, fun _ => [], fun r hr => ⟨?_, ?_, ?_, List.nodup_nil, ?_⟩⟩
    · unfold In.ghosts
      rw [ht1, Option.bind_some, hp1, Option.bind_some, he1, Option.bind_some, hg1, Option.bind_some, hi1, Option.bind_some, hg3,
        Option.bind_some, hg5, Option.bind_some]
    · rw [hnil (gp r)]; rfl
    · rw [hg4 r hr, hdel ei r hi2]; rfl
    · rw [hg6 r hr, hdel _ r (fun s hs => by rw [ht2 s hs]; rfl)]; rfl
    · intro s q
      simp [hnil (D.points s)]
  obtain ⟨x0⟩ := hX
  let pt : ℕ → ℕ → X := fun s q => (D.points s).getD q x0
  have hpt : ∀ s, ∀ q < n s, (D.points s)[q]? = some (pt s q) := by
    intro s q hq
    have : q < (D.points s).length := hq
    simp [pt, List.getD_eq_getElem?_getD, this]
  obtain ⟨ep, he1, he2⟩ := collect_some (P := D.P)
    (f := fun r => exportRows ((E.fwd 1).order r (D.points r).length) (t r).1 (fun q => (D.points r)[q]?))
    (g := fun s => (List.range (n s)).flatMap (fun q => List.replicate (rk s q).length (pt s q))) (by
      intro s hs
      rw [(hrk s hs).2.1]
      exact exportRows_spec _ (n s) ((hE.fwd 1).order _ _) _ _ (pt s) (hpt s))
  obtain ⟨gp, hg1, hg2⟩ := hp2 (E.fwd 1) (hE.fwd 1) X ep (hlen ep pt he2)
  -- ids
  obtain ⟨ei, hi1, hi2⟩ := collect_some (P := D.P)
    (f := fun r => exportRows ((E.fwd 2).order r (D.points r).length) (t r).1 (fun q => some q))
    (g := fun s => (List.range (n s)).flatMap (fun q => List.replicate (rk s q).length q)) (by
      intro s hs
      rw [(hrk s hs).2.1]
      exact exportRows_spec _ (n s) ((hE.fwd 2).order _ _) _ _ (fun q => q) (fun q _ => rfl))
  obtain ⟨gi, hg3, hg4⟩ := hp2 (E.fwd 2) (hE.fwd 2) ℕ ei (hlen ei (fun _ q => q) hi2)
  -- ranks
  have hx : ∀ s < D.P, List.replicate (t s).2.length (s : ℤ) =
      (List.range (n s)).flatMap (fun q => List.replicate (rk s q).length (s : ℤ)) := by
    intro s hs
    symm
    rw [List.eq_replicate_iff]
    constructor
    · rw [(hrk s hs).1]; simp [List.length_flatMap, hn]
    · intro b hb
      obtain ⟨q, -, h⟩ := List.mem_flatMap.mp hb
      exact (List.mem_replicate.mp h).2
  obtain ⟨gr, hg5, hg6⟩ := hp2 (E.fwd 3) (hE.fwd 3) ℤ (fun r => List.replicate (t r).2.length (r : ℤ)) (fun s hs => by simp)
  have hnd : ∀ s < D.P, ∀ q < n s, (rk s q).Nodup := fun s hs q hq => ((hrk s hs).2.2 q hq).1
  refine ⟨gp, gi, gr, ?_, inbox D.P n rk, fun r hr => ⟨?_, ?_, ?_, inbox_nodup hnd r, ?_⟩⟩
  · unfold In.ghosts
    rw [ht1, Option.bind_some, hp1, Option.bind_some, he1, Option.bind_some, hg1, Option.bind_some, hi1, Option.bind_some, hg3,
      Option.bind_some, hg5, Option.bind_some]
  · rw [hg2 r hr, deliver_rows hd pt he2, List.map_map]
    apply List.map_congr_left
    intro e he
    exact (hpt _ _ (mem_inbox.mp he).2.1).symm
  · rw [hg4 r hr, deliver_rows hd (fun _ q => q) hi2]
  · rw [hg6 r hr, deliver_rows hd (fun s _ => (s : ℤ)) hx]
  · intro s q
    rw [mem_inbox]
    simp only
    constructor
    · rintro ⟨h1, h2, h3⟩
      obtain ⟨i, hi, his, hri, hh⟩ := (((hrk s h1).2.2 q h2).2 r).mp h3
      have : r = i := by exact_mod_cast hri
      subst this
      exact ⟨h1, fun e => his e.symm, _, List.getElem?_eq_getElem h2, hh⟩
    · rintro ⟨h1, h2, p, h3, h4⟩
      obtain ⟨h5, rfl⟩ := List.getElem?_eq_some_iff.mp h3
      exact ⟨h1, h5, (((hrk s h1).2.2 q h5).2 r).mpr ⟨r, hr, fun e => h2 e.symm, rfl, h4⟩⟩

end ArborX.DistDbscan
