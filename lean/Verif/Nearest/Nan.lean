import Verif.Nearest.NanModel
import Verif.Nearest.Theorems

/-!
# Property theorems: nearest queries with NaN distances (C92)
-/

set_option linter.unusedSectionVars false

namespace ArborX.Nearest

open BVH Construction

variable {α V D : Type} {w : ℕ} [LinearOrder D]

/-- The query with infinity in place of NaN. -/
def NanQuery.toQuery (q : NanQuery α V D) : Query α V D :=
  ⟨q.k, fun a => (q.dl a).getD q.inf, fun v => (q.dv v).getD q.inf, q.zero, q.inf, q.cap⟩

lemma nanDistance_eq (mem : Mem α V) (q : NanQuery α V D) (j : ℕ) :
    distance mem q.toQuery j = (nanDistance mem q j).map (fun d => d.getD q.inf) := by
  unfold distance nanDistance
  split_ifs <;> rw [Option.map_map] <;> rfl

lemma nanOffer_eq (mem : Mem α V) (q : NanQuery α V D) (child : ℕ) (d : Option D) (heap : List (ℕ × D)) (radius : D) (hr : radius ≤ q.inf) :
    nanOffer mem q.k child d heap radius = offer mem q.toQuery child (d.getD q.inf) heap radius := by
  unfold nanOffer offer
  cases d with
  | none =>
    rw [if_neg (by simp [nanLt]), if_neg (by simpa using hr)]
  | some d =>
    by_cases h : d < radius
    · simp only [nanLt, h, decide_true, if_true, Option.getD_some]
      rfl
    · simp only [nanLt, h, decide_false, if_false, Option.getD_some, Bool.false_eq_true]

/-- Only a number is traversed; the radius does not exceed infinity. -/
lemma nanOffer_spec {mem : Mem α V} {q : NanQuery α V D} (hinf : ∀ x : D, x ≤ q.inf) {child : ℕ} {d : Option D} {heap heap' : List (ℕ × D)} {radius radius' : D}
    {t : Bool} (h : nanOffer mem q.k child d heap radius = some (heap', radius', t)) : (t = true → ∃ x, d = some x) ∧ radius' ≤ q.inf := by
  refine ⟨fun ht => ?_, hinf _⟩
  unfold nanOffer at h
  cases d with
  | none =>
    rw [if_neg (by simp [nanLt])] at h
    cases h
    cases ht
  | some x => exact ⟨x, rfl⟩

lemma nanLoop_eq (mem : Mem α V) (q : NanQuery α V D) (hinf : ∀ x : D, x ≤ q.inf) : ∀ (fuel node : ℕ) (dnode : D) (stack : List (ℕ × D)) (heap : List (ℕ × D))
    (radius : D), nanLoop mem q fuel node (some dnode) (stack.map (fun x => (x.1, some x.2))) heap radius =
      loop mem q.toQuery fuel node dnode stack heap radius := by
  intro fuel
  induction fuel with
  | zero => intros; rfl
  | succ fuel ih =>
    intro node dnode stack heap radius
    have hpop : ∀ heap radius, (match (stack.map (fun x => (x.1, some x.2)) : List (ℕ × Option D)) with
          | [] => Res.done heap
          | (n, d) :: st => nanLoop mem q fuel n d st heap radius) =
        (match stack with
          | [] => Res.done heap
          | (n, d) :: st => loop mem q.toQuery fuel n d st heap radius) := by
      intro heap radius
      cases stack with
      | nil => rfl
      | cons x st => exact ih x.1 x.2 st heap radius
    rw [nanLoop.eq_def, loop.eq_def]
    dsimp only
    by_cases h : dnode < radius
    · rw [if_pos (by simpa [nanLt] using h), if_pos h]
      cases hc : children mem node with
      | none => rfl
      | some c =>
        obtain ⟨l, r⟩ := c
        dsimp only
        rw [nanDistance_eq, nanDistance_eq]
        cases hl : nanDistance mem q l with
        | none => rfl
        | some dl =>
          cases hr : nanDistance mem q r with
          | none => rfl
          | some dr =>
            rw [Option.map_some, Option.map_some]
            dsimp only
            rw [← nanOffer_eq mem q l dl heap radius (hinf _)]
            cases ho : nanOffer mem q.k l dl heap radius with
            | none => rfl
            | some o =>
              obtain ⟨heap1, radius1, tl⟩ := o
              dsimp only
              rw [← nanOffer_eq mem q r dr heap1 radius1 (hinf _)]
              cases ho' : nanOffer mem q.k r dr heap1 radius1 with
              | none => rfl
              | some o' =>
                obtain ⟨heap2, radius2, tr⟩ := o'
                dsimp only
                have h1 := (nanOffer_spec hinf ho).1
                have h2 := (nanOffer_spec hinf ho').1
                cases tl with
                | false =>
                  cases tr with
                  | false => exact hpop heap2 radius2
                  | true =>
                    obtain ⟨y, rfl⟩ := h2 rfl
                    simp only [Bool.not_false, Bool.not_true, Bool.and_false, Bool.false_and, Bool.false_eq_true, if_false]
                    exact ih r y stack heap2 radius2
                | true =>
                  obtain ⟨x, rfl⟩ := h1 rfl
                  cases tr with
                  | false =>
                    simp only [Bool.not_false, Bool.not_true, Bool.and_true, Bool.false_eq_true, if_false, Bool.or_true, if_true]
                    exact ih l x stack heap2 radius2
                  | true =>
                    obtain ⟨y, rfl⟩ := h2 rfl
                    simp only [Bool.not_true, Bool.and_false, Bool.false_eq_true, if_false, Bool.or_false, Bool.true_and, if_true, List.length_map, nanLe,
                      Option.getD_some]
                    have e1 := ih l x ((r, y) :: stack) heap2 radius2
                    have e2 := ih r y ((l, x) :: stack) heap2 radius2
                    rw [List.map_cons] at e1 e2
                    rw [← e1, ← e2]
                    rfl
    · rw [if_neg (by simpa [nanLt] using h), if_neg h]
      exact hpop heap radius

/-- A NaN is treated as infinity. -/
lemma nanNearestQuery_eq (mem : Mem α V) (q : NanQuery α V D) (hinf : ∀ x : D, x ≤ q.inf) (fuel : ℕ) :
    nanNearestQuery mem q fuel = nearestQuery mem q.toQuery fuel := by
  have e : loop mem q.toQuery fuel mem.size q.toQuery.zero [] [] q.toQuery.inf = nanLoop mem q fuel mem.size (some q.zero) [] [] q.inf :=
    (nanLoop_eq mem q hinf fuel mem.size q.zero [] [] q.inf).symm
  have e1 : nanOneLeaf mem q.k = oneLeaf mem q.toQuery := rfl
  have e2 : nanFullTree mem q fuel = fullTree mem q.toQuery fuel := by
    unfold nanFullTree fullTree
    rw [e]
    rfl
  unfold nanNearestQuery nearestQuery
  rw [e1, e2]

variable [SemilatticeSup V] [OrderBot V]

/-- **C92.** A nearest query whose distances can be NaN ignores the values with NaN distance and returns the `k` nearest of the others at finite distance,
in order, provided no volume is farther than (or incomparable with) a value in it which is at finite distance. -/
theorem nearest_query_nan (I : Input α V w) (h : I.Valid) (hn : I.n ≠ 1) (q : NanQuery α V D) (hinf : ∀ x : D, x ≤ q.inf)
    (had : ∀ a d, q.dl a = some d → d < q.inf → q.zero ≤ d ∧ ∀ v, I.vol a ≤ v → ∃ d', q.dv v = some d' ∧ d' ≤ d) (hcap : StackFits I q.cap)
    (sched : List ℕ) (hf : I.Finished sched) (fuel : ℕ) (hfuel : 2 * I.n ≤ fuel) :
    ∃ calls, nanNearestQuery (I.build sched) q fuel = .done calls ∧
      IsKNearest (fun a => (q.dl a).getD q.inf) q.inf q.k I.stored calls ∧ ∀ a ∈ calls, ∃ d, q.dl a = some d := by
  have key : ∀ a, (q.dl a).getD q.inf = q.inf ∨ ∃ d, q.dl a = some d ∧ d < q.inf := by
    intro a
    cases ha : q.dl a with
    | none => exact .inl rfl
    | some d => rcases (hinf d).eq_or_lt with e | e
                · exact .inl e
                · exact .inr ⟨d, rfl, e⟩
  obtain ⟨calls, h1, h2⟩ := nearest_query I h hn q.toQuery
    (by
      intro a v hv
      show (q.dv v).getD q.inf ≤ (q.dl a).getD q.inf
      rcases key a with e | ⟨d, e, hd⟩
      · rw [e]; exact hinf _
      · obtain ⟨d', e', hd'⟩ := (had a d e hd).2 v hv
        rw [e, e']; exact hd')
    (by
      intro a
      show q.zero ≤ (q.dl a).getD q.inf
      rcases key a with e | ⟨d, e, hd⟩
      · rw [e]; exact hinf _
      · rw [e]; exact (had a d e hd).1)
    hcap sched hf fuel hfuel
  refine ⟨calls, by rw [nanNearestQuery_eq _ _ hinf]; exact h1, h2, fun a ha => ?_⟩
  obtain ⟨om, -, -, h3, -⟩ := h2
  have hlt : (q.dl a).getD q.inf < q.inf := h3 a ha
  rcases key a with e | ⟨d, e, -⟩
  · exact absurd hlt (by rw [e]; exact lt_irrefl _)
  · exact ⟨d, e⟩

end ArborX.Nearest
