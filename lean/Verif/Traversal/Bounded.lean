import Verif.Nearest.Theorems
import Verif.Ordered.Theorems

/-!
# Queries whose tests behave well only on the volumes of the tree

A test of volumes may be right on every volume inside the bounds of the scene and wrong beyond, for instance because it overflows there. The queries
only apply it to volumes of nodes, which are inside the bounds.
-/

set_option linter.unusedSectionVars false

namespace ArborX.Construction

open Function (update)

variable {α V : Type} [SemilatticeSup V] [OrderBot V]

/-- The volume a thread holds has the property `Q`. -/
def TSVol (Q : V → Prop) : TS V → Prop
  | .loop _ _ _ _ _ bv => Q bv
  | .readR _ _ _ _ bv _ => Q bv
  | .readL _ _ _ bv _ => Q bv
  | .write _ _ _ _ bv _ => Q bv
  | _ => True

/-- All volumes in memory have the property `Q`. -/
structure VolInv (P : Params α V) (Q : V → Prop) (s : State α V) : Prop where
  leaf : ∀ c x, s.leaf c = some x → Q (P.vol x.value)
  internal : ∀ c x, s.internal c = some x → Q x.vol
  thr : ∀ t, TSVol Q (s.thr t)

variable {P : Params α V} {Q : V → Prop}

lemma VolInv.setThr {s : State α V} (h : VolInv P Q s) (t : ℕ) {x : TS V} (hx : TSVol Q x) : VolInv P Q (setThr s t x) := by
  refine ⟨h.leaf, h.internal, fun u => ?_⟩
  show TSVol Q (update s.thr t x u)
  by_cases hu : u = t
  · rw [hu, Function.update_self]; exact hx
  · rw [Function.update_of_ne hu]; exact h.thr u

lemma VolInv.read {s : State α V} (h : VolInv P Q s) {b : Bool} {c : ℕ} {v : V} (e : readVol P s b c = some v) : Q v := by
  unfold readVol at e
  split_ifs at e
  · obtain ⟨x, hx, rfl⟩ := Option.map_eq_some_iff.mp e
    exact h.leaf c x hx
  · obtain ⟨x, hx, rfl⟩ := Option.map_eq_some_iff.mp e
    exact h.internal c x hx

lemma VolInv.step (hbot : Q ⊥) (hsup : ∀ a b, Q a → Q b → Q (a ⊔ b)) (hleaf : ∀ t ≤ P.m, Q (P.vol (P.value t)))
    {s : State α V} (h : VolInv P Q s) (t : ℕ) : VolInv P Q (step P s t) := by
  have hst : ∀ (s' : State α V) (x : TS V), s'.leaf = s.leaf → s'.internal = s.internal → s'.thr = update s.thr t x → TSVol Q x → VolInv P Q s' := by
    intro s' x e1 e2 e3 hx
    refine ⟨e1 ▸ h.leaf, e2 ▸ h.internal, fun u => ?_⟩
    rw [e3]
    by_cases hu : u = t
    · rw [hu, Function.update_self]; exact hx
    · rw [Function.update_of_ne hu]; exact h.thr u
  unfold Construction.step
  split_ifs with ht
  · exact h
  have htm : t ≤ P.m := not_lt.mp ht
  have hthr := h.thr t
  cases e : s.thr t with
  | init =>
    refine ⟨fun c x hx => ?_, h.internal, fun u => ?_⟩
    · dsimp only at hx
      by_cases hc : c = t
      · rw [hc, Function.update_self] at hx
        obtain rfl := Option.some.inj hx
        exact hleaf t htm
      · rw [Function.update_of_ne hc] at hx
        exact h.leaf c x hx
    · dsimp only
      by_cases hu : u = t
      · rw [hu, Function.update_self]
        exact hsup _ _ hbot (hleaf t htm)
      · rw [Function.update_of_ne hu]; exact h.thr u
  | loop i l r dl dr bv =>
    rw [e] at hthr
    dsimp only
    split_ifs
    · cases s.ranges r with
      | none => exact hst _ .done rfl rfl rfl trivial
      | some x => exact h.setThr t hthr
    · exact h.setThr t trivial
    · cases s.ranges (l - 1) with
      | none => exact hst _ .done rfl rfl rfl trivial
      | some x => exact h.setThr t hthr
    · exact h.setThr t trivial
  | readR i l r dl bv p =>
    rw [e] at hthr
    dsimp only
    cases ev : readVol P s (p + 1 == r) (p + 1) with
    | none => exact h.setThr t trivial
    | some v => exact h.setThr t (hsup _ _ hthr (h.read ev))
  | readL l r dr bv p =>
    rw [e] at hthr
    dsimp only
    cases ev : readVol P s (p == l) p with
    | none => exact h.setThr t trivial
    | some v => exact h.setThr t (hsup _ _ hthr (h.read ev))
  | write l r dl dr bv left =>
    rw [e] at hthr
    dsimp only
    by_cases hk : (if dr < dl then r else l) < P.m
    · rw [if_pos hk]
      refine ⟨h.leaf, fun c x hx => ?_, fun u => ?_⟩
      · dsimp only at hx
        by_cases hc : c = (if dr < dl then r else l)
        · rw [hc, Function.update_self] at hx
          obtain rfl := Option.some.inj hx
          exact hthr
        · rw [Function.update_of_ne hc] at hx
          exact h.internal c x hx
      · dsimp only
        by_cases hu : u = t
        · rw [hu, Function.update_self]
          split_ifs <;> first | exact hthr | trivial
        · rw [Function.update_of_ne hu]; exact h.thr u
    · rw [if_neg hk]; exact h.setThr t trivial
  | done => exact h
  | fault => exact h

lemma VolInv.run (hbot : Q ⊥) (hsup : ∀ a b, Q a → Q b → Q (a ⊔ b)) (hleaf : ∀ t ≤ P.m, Q (P.vol (P.value t))) (sched : List ℕ) :
    VolInv P Q (run P sched) := by
  unfold Construction.run
  have h0 : VolInv P Q (initState : State α V) := ⟨fun c x hx => by simp [initState] at hx, fun c x hx => by simp [initState] at hx, fun _ => trivial⟩
  generalize (initState : State α V) = s at h0 ⊢
  induction sched generalizing s with
  | nil => exact h0
  | cons t ts ih => exact ih _ (h0.step hbot hsup hleaf t)

end ArborX.Construction

namespace ArborX.BVH

open Construction

variable {α V : Type} {w : ℕ} [SemilatticeSup V] [OrderBot V]

/-- The volumes of all nodes are inside every volume that contains all values. -/
lemma build_vol_le (I : Input α V w) (h : I.Valid) {top : V} (htop : ∀ i < I.n, I.vol (I.values i) ≤ top) (sched : List ℕ) {j : ℕ} {nd : InternalNode V}
    (hj : (I.build sched).internal j = some nd) : nd.vol ≤ top := by
  unfold Input.build at hj
  split_ifs at hj with h0 h1
  refine (VolInv.run (P := I.params) (Q := fun v => v ≤ top) bot_le (fun a b => sup_le) (fun t ht => ?_) sched).internal j nd hj
  refine htop _ (h.perm_lt ?_)
  have : t ≤ I.n - 1 := ht
  omega

end ArborX.BVH

namespace ArborX.Traversal

open BVH Construction

variable {α V : Type} {w : ℕ} [SemilatticeSup V] [OrderBot V]

omit [SemilatticeSup V] [OrderBot V] in
lemma spatialLoop_congr {mem : Mem α V} {pl : α → Bool} {pv pv' : V → Bool} {stop : List α → Bool}
    (h : ∀ j nd, mem.internal j = some nd → pv nd.vol = pv' nd.vol) (fuel : ℕ) (node : Option ℕ) (acc : List α) :
    spatialLoop mem pl pv stop fuel node acc = spatialLoop mem pl pv' stop fuel node acc := by
  induction fuel generalizing node acc with
  | zero => cases node <;> rfl
  | succ fuel ih =>
    cases node with
    | none => rfl
    | some node =>
      simp only [spatialLoop, ih]
      split_ifs
      · rfl
      · cases e : mem.internal (node - mem.size) with
        | none => rfl
        | some nd => simp only [h _ _ e]

/-- A spatial query does not depend on what the test says of volumes beyond the bounds. -/
lemma spatialQuery_congr (I : Input α V w) (h : I.Valid) {top : V} (htop : ∀ i < I.n, I.vol (I.values i) ≤ top) {pl : α → Bool} {pv pv' : V → Bool}
    (hv : ∀ v ≤ top, pv v = pv' v) (stop : List α → Bool) (sched : List ℕ) (fuel : ℕ) :
    spatialQuery (I.build sched) pl pv stop fuel = spatialQuery (I.build sched) pl pv' stop fuel := by
  unfold spatialQuery
  rw [spatialLoop_congr (fun j nd hj => hv _ (build_vol_le I h htop sched hj))]

end ArborX.Traversal

namespace ArborX.Nearest

open BVH Construction

variable {α V D : Type} {w : ℕ} [SemilatticeSup V] [OrderBot V] [LinearOrder D]

omit [SemilatticeSup V] [OrderBot V] in
lemma loop_congr {mem : Mem α V} {q : Query α V D} {dv : V → D} (h : ∀ j nd, mem.internal j = some nd → q.dv nd.vol = dv nd.vol)
    (fuel node : ℕ) (dnode : D) (stack heap : List (ℕ × D)) (radius : D) :
    loop mem q fuel node dnode stack heap radius = loop mem { q with dv := dv } fuel node dnode stack heap radius := by
  have hd : ∀ j, distance mem q j = distance mem { q with dv := dv } j := by
    intro j
    unfold distance
    split_ifs
    · rfl
    · cases e : mem.internal (j - mem.size) with
      | none => rfl
      | some nd => simp only [Option.map_some, h _ _ e]
  have ho : ∀ c d hp r, offer mem q c d hp r = offer mem { q with dv := dv } c d hp r := fun _ _ _ _ => rfl
  induction fuel generalizing node dnode stack heap radius with
  | zero => rfl
  | succ fuel ih => simp only [loop, ih, hd, ho]

/-- A nearest query does not depend on the distances of volumes beyond the bounds. -/
lemma nearestQuery_congr (I : Input α V w) (h : I.Valid) {top : V} (htop : ∀ i < I.n, I.vol (I.values i) ≤ top) {q : Query α V D} {dv : V → D}
    (hv : ∀ v ≤ top, q.dv v = dv v) (sched : List ℕ) (fuel : ℕ) :
    nearestQuery (I.build sched) q fuel = nearestQuery (I.build sched) { q with dv := dv } fuel := by
  unfold nearestQuery fullTree
  rw [loop_congr (fun j nd hj => hv _ (build_vol_le I h htop sched hj))]
  rfl

end ArborX.Nearest

namespace ArborX.Ordered

open BVH Construction

variable {α V D : Type} {w : ℕ} [SemilatticeSup V] [OrderBot V] [LinearOrder D]

omit [SemilatticeSup V] [OrderBot V] in
lemma loop_congr {mem : Mem α V} {q : Query α V D} {dv : V → D} (h : ∀ j nd, mem.internal j = some nd → q.dv nd.vol = dv nd.vol)
    (stop : List α → Bool) (fuel node : ℕ) (heap : List (ℕ × D)) (acc : List α) :
    loop mem q stop fuel node heap acc = loop mem { q with dv := dv } stop fuel node heap acc := by
  have hd : ∀ j, distance mem q j = distance mem { q with dv := dv } j := by
    intro j
    unfold distance
    split_ifs
    · rfl
    · cases e : mem.internal (j - mem.size) with
      | none => rfl
      | some nd => simp only [Option.map_some, h _ _ e]
  have hp : ∀ hp p, pushFinite q hp p = pushFinite { q with dv := dv } hp p := fun _ _ => rfl
  induction fuel generalizing node heap acc with
  | zero => rfl
  | succ fuel ih => simp only [loop, ih, hd, hp]

/-- An ordered query does not depend on the distances of volumes beyond the bounds. -/
lemma orderedQuery_congr (I : Input α V w) (h : I.Valid) {top : V} (htop : ∀ i < I.n, I.vol (I.values i) ≤ top) {q : Query α V D} {dv : V → D}
    (hv : ∀ v ≤ top, q.dv v = dv v) (stop : List α → Bool) (sched : List ℕ) (fuel : ℕ) :
    orderedQuery (I.build sched) q stop fuel = orderedQuery (I.build sched) { q with dv := dv } stop fuel := by
  unfold orderedQuery
  rw [loop_congr (fun j nd hj => hv _ (build_vol_le I h htop sched hj))]
  rfl

/-- Whether the buffer is large enough only depends on the volumes of the tree. -/
lemma bufferFits_congr (I : Input α V w) (h : I.Valid) {top : V} (htop : ∀ i < I.n, I.vol (I.values i) ≤ top) {q : Query α V D} {dv : V → D}
    (hv : ∀ v ≤ top, q.dv v = dv v) (hq : BufferFits I q) : BufferFits I { q with dv := dv } := by
  intro T hT
  refine le_of_eq_of_le ?_ (hq T hT)
  have hleaf : ∀ {l r : ℕ} {T : BTree}, CartTree (deltaBits (fun i => I.code (I.perm i))) l r T → ∀ i ∈ T.leaves, i ≤ r := by
    intro l r T hT
    induction hT with
    | leaf i => intro j hj; simp [BTree.leaves] at hj; exact hj.le
    | node l p r a b h1 h2 _ _ _ _ iha ihb =>
      intro j hj
      rcases List.mem_append.mp hj with hj | hj
      · exact (iha j hj).trans h2.le
      · exact ihb j hj
  have hvol : ∀ T : BTree, (∀ i ∈ T.leaves, I.vol (I.values (I.perm i)) ≤ top) → T.vol (fun i => I.vol (I.values (I.perm i))) ≤ top := by
    intro T
    induction T with
    | leaf i => intro h; exact h i (by simp [BTree.leaves])
    | node a b iha ihb =>
      intro h
      exact sup_le (iha fun i hi => h i (List.mem_append_left _ hi)) (ihb fun i hi => h i (List.mem_append_right _ hi))
  have key : ∀ T : BTree, (∀ i ∈ T.leaves, I.vol (I.values (I.perm i)) ≤ top) →
      width { q with dv := dv } (fun i => I.values (I.perm i)) I.vol T = width q (fun i => I.values (I.perm i)) I.vol T := by
    intro T
    induction T with
    | leaf i => intro _; rfl
    | node a b iha ihb =>
      intro h
      have e : distT { q with dv := dv } (fun i => I.values (I.perm i)) I.vol (.node a b) = distT q (fun i => I.values (I.perm i)) I.vol (.node a b) :=
        (hv _ (hvol _ h)).symm
      rw [width, width, e, iha fun i hi => h i (List.mem_append_left _ hi), ihb fun i hi => h i (List.mem_append_right _ hi)]
  by_cases hn : I.n = 0
  · rw [hn] at hT
    cases hT with
    | leaf => rfl
    | node _ _ _ _ _ h1 h2 => omega
  · refine key T fun i hi => htop _ ?_
    have := hleaf hT i hi
    have hm : I.perm i ∈ (List.range I.n).map I.perm := List.mem_map_of_mem (List.mem_range.mpr (by omega))
    exact List.mem_range.mp (h.sorted.perm.mem_iff.mp hm)

end ArborX.Ordered
