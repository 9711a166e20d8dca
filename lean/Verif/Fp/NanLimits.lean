import Verif.Fp.Nan
import Verif.Fp.DistDbscan

/-!
# NaN and infinite coordinates: limits and examples (C92)
-/

namespace ArborX.Fp

open BVH Nearest

/-- A point of the line. -/
noncomputable def at1 (x : Num) : NGeo 1 := .point (fun _ => x)

lemma at1_lo (M : ℝ) (x : Num) (d : Fin 1) : OrderDual.ofDual ((at1 x).bound M).1.1 d = minWith M x := rfl

lemma at1_hi (M : ℝ) (x : Num) (d : Fin 1) : ((at1 x).bound M).1.2 d = maxWith (-M) x := rfl

/-- Some points of the line, with equal codes. -/
noncomputable def nanLine (l : List Num) : NScene 1 := ⟨l.map at1, 100, fun _ => 0, fun i => i⟩

lemma nanLine_valid {l : List Num} (h : l.length ≤ 2 ^ 63) : (nanLine l).Valid where
  fits := by show (l.map at1).length ≤ _; rwa [List.length_map]
  sorted := ⟨by show ((List.range _).map (fun i => i)).Perm (List.range _); rw [List.map_id'], fun _ _ => le_rfl⟩
  top := fun _ _ => by show (0 : BitVec 64).toNat < _; simp

/-- The interval from 0 to 1. -/
noncomputable def unitInterval : NQuery 1 := .box (fun _ => some 0) (fun _ => some 1)

/-- **C92 (limits).** Whether a point with a NaN coordinate is returned by a query for a box depends on the other values: alone it is returned, together with a point outside of
the box it is not, although in both cases the test accepts it. -/
theorem nan_value_depends (F : Format) :
    (∀ sched fuel, (nanLine [none]).input.Finished sched → 2 ≤ fuel →
      Traversal.spatialQuery ((nanLine [none]).input.build sched) ((nanLine [none]).leafTest F unitInterval) ((nanLine [none]).nodeTest F unitInterval)
        (fun _ => false) fuel = .done [0]) ∧
    (∀ sched fuel, (nanLine [none, some 10]).input.Finished sched → 4 ≤ fuel →
      Traversal.spatialQuery ((nanLine [none, some 10]).input.build sched) ((nanLine [none, some 10]).leafTest F unitInterval)
        ((nanLine [none, some 10]).nodeTest F unitInterval) (fun _ => false) fuel = .done []) ∧
    (nanLine [none, some 10]).leafTest F unitInterval 0 = true := by
  have ht : ∀ l : List Num, (nanLine (none :: l)).leafTest F unitInterval 0 = true := by
    intro l
    simp [NScene.leafTest, NScene.at, nanLine, at1, unitInterval, Format.nintersects, ninBox, nanLt]
  refine ⟨fun sched fuel _ _ => ?_, fun sched fuel hf hfuel => ?_, ht _⟩
  · have hb : (nanLine [none]).input.build sched = ⟨1, fun i => if i = 0 then some ⟨none, 0⟩ else none, fun _ => none⟩ := by
      unfold Input.build
      rw [if_neg (by show ¬ 1 = 0; norm_num), if_pos (by rfl)]
      rfl
    rw [hb]
    simp only [Traversal.spatialQuery, Traversal.spatialOneLeaf, if_true, ht, one_ne_zero, if_false]
  · refine Traversal.spatial_query_root_rejected _ (nanLine_valid (by norm_num)).input (by show 2 ≤ 2; norm_num) _ _ (fun v hv => ?_) sched hf fuel (by exact hfuel)
    have h1 : OrderDual.ofDual ((at1 (some 10)).bound (100 : ℝ)).1.1 0 ≤ OrderDual.ofDual v.1.1 0 := by
      have : v ≤ ((at1 (some 10)).bound (100 : ℝ)) := by
        refine hv.2 ?_
        rintro u ⟨i, hi, rfl⟩
        have hi' : i < 2 := hi
        interval_cases i
        · show (at1 none).bound (100 : ℝ) ≤ _
          refine ⟨fun d => ?_, fun d => ?_⟩
          · show OrderDual.ofDual ((at1 (some 10)).bound (100 : ℝ)).1.1 d ≤ OrderDual.ofDual ((at1 none).bound (100 : ℝ)).1.1 d
            rw [at1_lo, at1_lo]
            exact (minWith_le _ _).trans_eq (by simp [minWith, nanLt])
          · rw [at1_hi, at1_hi]
            have : maxWith (-(100 : ℝ)) none = -(100 : ℝ) := by simp [maxWith, nanLt]
            rw [this]
            exact le_maxWith _ _
        · exact le_rfl
      exact this.1 0
    have h2 : OrderDual.ofDual ((at1 (some 10)).bound (100 : ℝ)).1.1 0 = 10 := by
      show minWith _ (some 10) = 10
      rw [minWith_some]
      exact min_eq_right (by show ((10 : ℝ) : EReal) ≤ ((100 : ℝ) : EReal); norm_cast)
    rw [h2] at h1
    have h3 : nanLt (some (1 : EReal)) (v.lo 0) = true := by
      show decide ((1 : EReal) < OrderDual.ofDual v.1.1 0) = true
      exact decide_eq_true (lt_of_lt_of_le (by norm_cast) h1)
    simp [NScene.nodeTest, unitInterval, Format.nintersects, nboxes, h3]

/-- **C92 (limits).** A ball of infinite radius around an infinite point does not find a value its test accepts, if there is a value at infinity: the condition of
`ball_query_nan` is needed. -/
theorem infinite_ball_misses (F : Format) (sched : List ℕ) (fuel : ℕ) (hf : (nanLine [some 0, some ⊤]).input.Finished sched) (hfuel : 4 ≤ fuel) :
    Traversal.spatialQuery ((nanLine [some 0, some ⊤]).input.build sched) ((nanLine [some 0, some ⊤]).leafTest F (.sphere (fun _ => some ⊤) (some ⊤)))
        ((nanLine [some 0, some ⊤]).nodeTest F (.sphere (fun _ => some ⊤) (some ⊤))) (fun _ => false) fuel = .done [] ∧
      (nanLine [some 0, some ⊤]).leafTest F (.sphere (fun _ => some ⊤) (some ⊤)) 0 = true := by
  constructor
  · refine Traversal.spatial_query_root_rejected _ (nanLine_valid (by norm_num)).input (by show 2 ≤ 2; norm_num) _ _ (fun v hv => ?_) sched hf fuel (by exact hfuel)
    have h1 : v.1.2 0 = ⊤ := by
      have : (at1 (some ⊤)).bound (100 : ℝ) ≤ v := hv.1 ⟨1, by show 1 < 2; norm_num, rfl⟩
      have := this.2 0
      have e : ((at1 (some ⊤)).bound (100 : ℝ)).1.2 0 = ⊤ := by
        rw [at1_hi, maxWith_some]; exact max_eq_right le_top
      rw [e] at this
      exact top_le_iff.mp this
    have h2 : nclosest (fun _ : Fin 1 => some (⊤ : EReal)) v.lo v.hi 0 = some ⊤ := by
      simp [nclosest, nanLt, NBound.lo, NBound.hi, h1]
    show nanLe (F.ndist _ (nclosest _ _ _)) _ = false
    have h3 : F.ndist (fun _ : Fin 1 => some (⊤ : EReal)) (nclosest (fun _ : Fin 1 => some (⊤ : EReal)) v.lo v.hi) = none := by
      have hl : List.finRange 1 = [0] := by decide
      unfold Format.ndist
      rw [hl, List.foldl_cons, List.foldl_nil, h2]
      simp [Format.nsub, Format.nstep]
    rw [h3]
    rfl
  · have hl : List.finRange 1 = [0] := by decide
    have : F.ndist (fun _ : Fin 1 => some (⊤ : EReal)) (fun _ : Fin 1 => some (0 : EReal)) = some ⊤ := by
      unfold Format.ndist
      rw [hl, List.foldl_cons, List.foldl_nil]
      simp [Format.nsub, Format.nstep, Format.madd, Format.sqrt]
    show nanLe (F.ndist (fun _ : Fin 1 => some (⊤ : EReal)) (fun _ : Fin 1 => some (0 : EReal))) (some ⊤) = true
    rw [this]
    simp [nanLe]

/-! ## Non-vacuity -/

/-- The values NaN, 1/2, infinity and 10; the second is found in the interval from 0 to 1, the others but perhaps the first are not. -/
example (F : Format) : ∃ sched calls, Traversal.spatialQuery ((nanLine [none, some ((1 / 2 : ℝ) : EReal), some ⊤, some 10]).input.build sched)
      ((nanLine [none, some ((1 / 2 : ℝ) : EReal), some ⊤, some 10]).leafTest F unitInterval)
      ((nanLine [none, some ((1 / 2 : ℝ) : EReal), some ⊤, some 10]).nodeTest F unitInterval) (fun _ => false) 8 = .done calls ∧ 1 ∈ calls ∧ 2 ∉ calls ∧ 3 ∉ calls := by
  have hv : (nanLine [none, some ((1 / 2 : ℝ) : EReal), some ⊤, some 10]).Valid := nanLine_valid (by norm_num)
  obtain ⟨sched, hs⟩ := Construction.exists_complete (nanLine [none, some ((1 / 2 : ℝ) : EReal), some ⊤, some 10]).input.params (hv.input.keys (by show 2 ≤ 4; norm_num))
  obtain ⟨calls, h1, -, -, h4⟩ := intersects_query_nan _ hv F unitInterval trivial
  refine ⟨sched, calls, h1 sched (fun _ => hs) 8 (by show 8 ≤ 8; norm_num), (h4 1 (by show 1 < 4; norm_num) (fun _ => ⟨_, rfl⟩)).mpr ?_, fun h => ?_, fun h => ?_⟩
  · have e1 : ¬ ((1 : EReal) < ((1 / 2 : ℝ) : EReal)) := by rw [not_lt]; norm_cast; norm_num
    have e2 : ¬ (((1 / 2 : ℝ) : EReal) < 0) := by rw [not_lt]; norm_cast; norm_num
    simp only [NScene.at, nanLine, at1, unitInterval, Format.nintersects, ninBox, List.map_cons, List.getD_cons_succ, List.getD_cons_zero, nanLt, e1, e2,
      decide_false, Bool.or_false, Bool.not_false, List.all_eq_true, implies_true]
  · have := (h4 2 (by show 2 < 4; norm_num) (fun _ => ⟨_, rfl⟩)).mp h
    have e1 : (1 : EReal) < ⊤ := EReal.coe_lt_top 1
    simp [NScene.at, nanLine, at1, unitInterval, Format.nintersects, ninBox, nanLt, e1] at this
  · have := (h4 3 (by show 3 < 4; norm_num) (fun _ => ⟨_, rfl⟩)).mp h
    have e1 : (1 : EReal) < 10 := by norm_cast
    simp [NScene.at, nanLine, at1, unitInterval, Format.nintersects, ninBox, nanLt, e1] at this

/-- The two values nearest to 0 among NaN and 5 are: 5. -/
example : ∃ sched, nanNearestQuery ((nanLine [none, some ((5 : ℝ) : EReal)]).input.build sched)
    ((nanLine [none, some ((5 : ℝ) : EReal)]).nearest Fp.exact (fun _ => some ((0 : ℝ) : EReal)) 2) 4 = .done [1] := by
  have hv : (nanLine [none, some ((5 : ℝ) : EReal)]).Valid := nanLine_valid (by norm_num)
  obtain ⟨sched, hs⟩ := Construction.exists_complete (nanLine [none, some ((5 : ℝ) : EReal)]).input.params (hv.input.keys (by show 2 ≤ 2; norm_num))
  obtain ⟨calls, h1, ⟨om, h2, -, -, -, -, h7⟩, h3⟩ := nearest_query_nan_points _ hv (by show 2 ≠ 1; norm_num)
    (by
      intro i hi lo hi' e
      have hi2 : i < 2 := hi
      interval_cases i <;> cases e)
    Fp.exact (fun _ => some ((0 : ℝ) : EReal)) 2 (Nearest.stack_suffices_small _ (by norm_num) (by show 2 ≤ _; norm_num)) sched (fun _ => hs) 4 (by show 4 ≤ 4; norm_num)
  refine ⟨sched, ?_⟩
  rw [h1]
  have h0 : 0 ∉ calls := by
    intro h
    obtain ⟨r, hr⟩ := h3 0 h
    have hl : List.finRange 1 = [0] := by decide
    simp [NScene.at, nanLine, at1, Format.ndistance, Format.ndist, hl, Format.nsub, Format.nstep] at hr
  have hsub : ∀ i ∈ calls, i = 1 := by
    intro i hi
    have : i < 2 := List.mem_range.mp (h2.mem_iff.mp (List.mem_append_left _ hi))
    have : i ≠ 0 := fun e => h0 (e ▸ hi)
    omega
  have hnd : calls.Nodup := ((h2.nodup_iff.mpr List.nodup_range).sublist (List.sublist_append_left _ _))
  have hle : calls.length ≤ 1 := by
    have := hnd.subperm (l₂ := [1]) (fun i hi => by simp [hsub i hi])
    simpa using this.length_le
  have h1m : 1 ∈ calls := by
    by_contra hcon
    have hom : 1 ∈ om := by
      have : 1 ∈ calls ++ om := h2.mem_iff.mpr (List.mem_range.mpr (by show 1 < 2; norm_num))
      exact (List.mem_append.mp this).resolve_left hcon
    refine h7 (by omega) 1 hom ?_
    show ((Fp.exact.ndist (fun _ : Fin 1 => some ((0 : ℝ) : EReal)) (fun _ => some ((5 : ℝ) : EReal))).getD ⊤ : EReal) < ⊤
    rw [ndist_coe (F := Fp.exact) (fun _ : Fin 1 => (0 : ℝ)) (fun _ => (5 : ℝ)), exact_distPoint]
    exact EReal.coe_lt_top _
  obtain ⟨i, rfl⟩ := List.length_eq_one_iff.mp (le_antisymm hle (List.length_pos_of_mem h1m))
  rw [List.mem_singleton] at h1m
  rw [h1m]

end ArborX.Fp
