import Verif.Viz.Lemmas
import Mathlib.Logic.Relation
import Mathlib.Data.List.Nodup

/-! # Property theorems: drawing a tree (C75) -/

set_option linter.unusedSectionVars false

namespace ArborX.Viz

open BVH Construction

variable {α V β : Type} {w : ℕ} [SemilatticeSup V] [OrderBot V]

/-- A stack of `cap` entries is large enough for the hierarchy built for `I`: no path from the root turns right more than `cap - 1` times. -/
def Fits (I : Input α V w) (cap : ℕ) : Prop :=
  ∀ T, CartTree (deltaBits (fun i => I.code (I.perm i))) 0 (I.n - 1) T → room T ≤ cap

/-- **C75.** As many entries as values are always enough. -/
theorem fits_small (I : Input α V w) {cap : ℕ} (h1 : 1 ≤ I.n) (hn : I.n ≤ cap) : Fits I cap := by
  intro T hT
  have := cart_leaves_length hT
  have := room_leaves T
  omega

/-- **C75.** Codes below `2^c` and at most `2^K` values. -/
theorem fits_codes (I : Input α V w) (h : I.Valid) {K c : ℕ} (hK : I.n ≤ 2 ^ K) (hc : c < w)
    (hcode : ∀ i < I.n, (I.code i).toNat < 2 ^ c) : Fits I (K + c + 1) := by
  intro T hT
  have h1 := height_bound h.width I.n K c _ h.fits hK hc h.sorted.sorted (fun i hi => hcode _ (h.perm_lt hi)) hT
  have h2 := room_height T
  omega

lemma internal_lt (P : Params α V) (sched : List ℕ) : ∀ j x, (run P sched).internal j = some x → j < P.m := by
  unfold run
  suffices H : ∀ s : State α V, (∀ j x, s.internal j = some x → j < P.m) → ∀ j x, (sched.foldl (step P) s).internal j = some x → j < P.m from
    H _ (by intro j x h; simp [initState] at h)
  induction sched with
  | nil => intro s h; exact h
  | cons t ts ih =>
    intro s h
    rw [List.foldl_cons]
    refine ih _ ?_
    intro j x hj
    unfold step at hj
    split at hj
    · exact h j x hj
    · split at hj
      · exact h j x hj
      · split at hj
        · split at hj
          · split at hj <;> exact h j x hj
          · exact h j x hj
        · split at hj
          · split at hj <;> exact h j x hj
          · exact h j x hj
      · dsimp only at hj
        split at hj <;> exact h j x hj
      · split at hj <;> exact h j x hj
      · rename_i l r dl dr bv left heq
        dsimp only at hj
        generalize (if dr < dl then r else l) = k at hj
        split at hj
        · rename_i hk
          by_cases hjk : j = k
          · rw [hjk]; exact hk
          · simp only [Function.update_of_ne hjk] at hj
            exact h j x hj
        · exact h j x hj
      · exact h j x hj
      · exact h j x hj

/-- The visit of the built tree. -/
lemma build_visit (I : Input α V w) (h : I.Valid) (hn : 2 ≤ I.n) : ∃ T, CartTree (deltaBits (fun i => I.code (I.perm i))) 0 (I.n - 1) T ∧
    T.size = 2 * I.n - 1 ∧ ∀ sched, I.Finished sched → (I.build sched).size = I.n ∧ ∃ l, Visit (I.build sched) (fun i => I.values (I.perm i)) I.vol T I.n none l ∧
      l.Perm (List.range (2 * I.n - 1)) := by
  obtain ⟨T, hcart, hT⟩ := build_cartesian I h hn
  have hlen := cart_leaves_length hcart
  have hsz := Traversal.size_eq T
  refine ⟨T, hcart, by omega, fun sched hf => ?_⟩
  obtain ⟨hl, hlay⟩ := hT sched hf
  have hbs : (I.build sched).size = I.n := build_size I sched
  rw [hbs] at hl hlay
  obtain ⟨l, hv⟩ := exists_visit T hlay
  refine ⟨hbs, l, hv, ?_⟩
  have hnd : l.Nodup := hv.nodup (by rw [hl]; exact List.nodup_range)
  have hlt : ∀ j ∈ l, j < 2 * I.n - 1 := by
    intro j hj
    refine hv.lt (by rw [hbs]; omega) ?_ hj
    intro k x hk
    rw [hbs]
    have : k < I.params.m := internal_lt I.params sched k x (by
      unfold Input.build at hk
      rw [if_neg (by omega), if_neg (by omega)] at hk
      exact hk)
    simp only [Input.params] at this
    omega
  have hsub : l.Subperm (List.range (2 * I.n - 1)) := hnd.subperm (fun j hj => List.mem_range.mpr (hlt j hj))
  exact hsub.perm_of_length_le (by rw [hv.length, List.length_range]; omega)

/-- **C75.** On a tree of at least two values `visitAllIterative` calls the visitor on every node exactly once, whatever the visitor, if the stack is large
enough; otherwise it writes outside of its stack. The order is the same for all visitors. -/
theorem visit_all_partial (I : Input α V w) (h : I.Valid) (hn : 2 ≤ I.n) (cap : ℕ) (hcap : Fits I cap) (sched : List ℕ) (hf : I.Finished sched) :
    ∃ order : List ℕ, order.Perm (List.range (2 * I.n - 1)) ∧ order.head? = some I.n ∧ ∀ (visit : ℕ → Option (List β)) (out : ℕ → List β),
      (∀ j < 2 * I.n - 1, visit j = some (out j)) → ∀ fuel, 2 * I.n ≤ fuel →
      visitAll (I.build sched) visit cap fuel = .done (order.flatMap out) := by
  obtain ⟨T, hcart, hs, hT⟩ := build_visit I h hn
  obtain ⟨hbs, l, hv, hp⟩ := hT sched hf
  refine ⟨l, hp, ?_, ?_⟩
  · cases hv with
    | leaf => exact rfl
    | node => rfl
  · intro visit out ho fuel hfuel
    unfold visitAll
    rw [hbs, if_neg (by omega)]
    have := visitLoop_tree (cap := cap) hv (visit := visit) (out := out) (fun j hj => ho j (List.mem_range.mp (hp.subset hj))) [] [] (fuel - (2 * I.n - 1))
      (by simpa using hcap T hcart)
    rw [hs, Nat.sub_add_cancel (by omega)] at this
    rw [this, show fuel - (2 * I.n - 1) = (fuel - 2 * I.n) + 1 by omega, visitLoop]
    simp

/-! ## The text for Graphviz -/

/-- Node statements of an output. -/
def nodes (out : List Stmt) : List (Label × Bool) := out.filterMap fun
  | .node l b => some (l, b)
  | .edge _ _ _ => none

/-- Where the edges of an output start. -/
def sources (out : List Stmt) : List Label := out.filterMap fun
  | .node _ _ => none
  | .edge a _ _ => some a

/-- Where the edges of an output end, and whether they are marked as pendant. -/
def targets (out : List Stmt) : List (Label × Bool) := out.filterMap fun
  | .node _ _ => none
  | .edge _ b p => some (b, p)

/-- Label of a node of a tree with `n` values. -/
def lab (n : ℕ) (ix : ℕ → ℕ) (j : ℕ) : Label := if j < n then .leaf (ix j) else .internal j

variable {mem : Mem α V} {value : ℕ → α} {vol : α → V} {index : α → ℕ}

lemma layout_label {T : BTree} {id : ℕ} {rope : Option ℕ} (h : Layout mem value vol T id rope) :
    label mem index id = some (lab mem.size (fun j => index (value j)) id) := by
  unfold label lab
  cases T with
  | leaf i =>
    obtain ⟨rfl, h2, h3⟩ := h
    rw [if_pos h2, if_pos h2, h3]
    rfl
  | node a b =>
    obtain ⟨_, _, h2, -⟩ := h
    rw [if_neg (by omega), if_neg (by omega)]

/-- What the visitor prints. -/
lemma graphviz_tree {T : BTree} {id : ℕ} {rope : Option ℕ} {l : List ℕ} (h : Visit mem value vol T id rope l) {out : ℕ → List Stmt}
    (ho : ∀ j, out j = (graphviz mem index j).getD []) : (∀ j ∈ l, graphviz mem index j = some (out j)) ∧ l.head? = some id ∧
    nodes (l.flatMap out) = l.map (fun j => (lab mem.size (fun j => index (value j)) j, decide (j < mem.size))) ∧
    (targets (l.flatMap out)).Perm (l.tail.map (fun j => (lab mem.size (fun j => index (value j)) j, decide (j < mem.size)))) ∧
    sources (l.flatMap out) = (l.filter (fun j => decide (¬ j < mem.size))).flatMap (fun j => [Label.internal j, .internal j]) ∧
    ∀ j ∈ l, Relation.ReflTransGen (fun a b => ∃ p, Stmt.edge a b p ∈ l.flatMap out) (lab mem.size (fun j => index (value j)) id)
      (lab mem.size (fun j => index (value j)) j) := by
  induction h with
  | leaf i rope hl =>
    have hi : i < mem.size := hl.2.1
    have hg : graphviz mem index i = some [.node (lab mem.size (fun j => index (value j)) i) true] := by
      unfold graphviz
      rw [layout_label hl]
      simp only
      rw [if_pos hi]
    have hoi : out i = [.node (lab mem.size (fun j => index (value j)) i) true] := by rw [ho, hg]; rfl
    refine ⟨?_, rfl, ?_, ?_, ?_, ?_⟩
    · intro j hj; rw [List.mem_singleton] at hj; rw [hj, hoi, hg]
    · simp [hoi, nodes, hi]
    · simp [hoi, targets]
    · simp [hoi, sources, hi]
    · intro j hj; rw [List.mem_singleton] at hj; rw [hj]
  | node a b id ia ib rope va vb hl hch hva hvb iha ihb =>
    have hid : ¬ id < mem.size := by obtain ⟨_, _, h, -⟩ := hl; omega
    have hlab : lab mem.size (fun j => index (value j)) id = .internal id := if_neg hid
    have hg : graphviz mem index id = some [.node (.internal id) false,
        .edge (.internal id) (lab mem.size (fun j => index (value j)) ia) (decide (ia < mem.size)),
        .edge (.internal id) (lab mem.size (fun j => index (value j)) ib) (decide (ib < mem.size))] := by
      unfold graphviz
      rw [layout_label hl, hlab]
      simp only
      rw [if_neg hid, hch]
      simp only
      rw [layout_label hva.layout, layout_label hvb.layout]
    have hoi := (ho id).trans (congrArg (·.getD []) hg)
    simp only [Option.getD_some] at hoi
    obtain ⟨a1, a2, a3, a4, a5, a6⟩ := iha
    obtain ⟨b1, b2, b3, b4, b5, b6⟩ := ihb
    obtain ⟨ta, hta⟩ : ∃ ta, va = ia :: ta := by
      cases va with
      | nil => simp at a2
      | cons x t => simp at a2; exact ⟨t, by rw [a2]⟩
    obtain ⟨tb, htb⟩ : ∃ tb, vb = ib :: tb := by
      cases vb with
      | nil => simp at b2
      | cons x t => simp at b2; exact ⟨t, by rw [b2]⟩
    refine ⟨?_, rfl, ?_, ?_, ?_, ?_⟩
    · intro j hj
      rw [List.mem_cons, List.mem_append] at hj
      rcases hj with rfl | hj | hj
      · rw [hoi, hg]
      · exact b1 j hj
      · exact a1 j hj
    · rw [List.flatMap_cons, List.flatMap_append, hoi]
      simp only [nodes, List.filterMap_append, List.map_cons, List.map_append, hlab] at a3 b3 ⊢
      rw [a3, b3]
      simp [hid]
    · rw [List.flatMap_cons, List.flatMap_append, hoi]
      have e : targets ([Stmt.node (.internal id) false,
          .edge (.internal id) (lab mem.size (fun j => index (value j)) ia) (decide (ia < mem.size)),
          .edge (.internal id) (lab mem.size (fun j => index (value j)) ib) (decide (ib < mem.size))] ++ (vb.flatMap out ++ va.flatMap out))
        = (lab mem.size (fun j => index (value j)) ia, decide (ia < mem.size)) :: (lab mem.size (fun j => index (value j)) ib, decide (ib < mem.size)) ::
          (targets (vb.flatMap out) ++ targets (va.flatMap out)) := by
        simp [targets]
      rw [e, List.tail_cons, List.map_append]
      have evb : ∀ f : ℕ → Label × Bool, vb.map f = f ib :: vb.tail.map f := fun f => by rw [htb]; rfl
      have eva : ∀ f : ℕ → Label × Bool, va.map f = f ia :: va.tail.map f := fun f => by rw [hta]; rfl
      rw [evb, eva, List.cons_append]
      refine (List.Perm.swap _ _ _).trans (List.Perm.cons _ ?_)
      refine (List.Perm.cons _ (b4.append a4)).trans ?_
      exact List.perm_middle.symm
    · rw [List.flatMap_cons, List.flatMap_append, hoi]
      simp only [sources, List.filterMap_append] at a5 b5 ⊢
      rw [a5, b5, List.filter_cons_of_pos (by simpa using hid), List.filter_append, List.flatMap_cons, List.flatMap_append]
      rfl
    · intro j hj
      have up : ∀ {v : List ℕ} {x y : Label}, v.Sublist (id :: (vb ++ va)) → Relation.ReflTransGen (fun a b => ∃ p, Stmt.edge a b p ∈ v.flatMap out) x y →
          Relation.ReflTransGen (fun a b => ∃ p, Stmt.edge a b p ∈ (id :: (vb ++ va)).flatMap out) x y := by
        intro v x y hs hr
        refine Relation.ReflTransGen.mono ?_ _ _ hr
        rintro p q ⟨r, hr⟩
        rw [List.mem_flatMap] at hr
        obtain ⟨z, hz1, hz2⟩ := hr
        exact ⟨r, List.mem_flatMap.mpr ⟨z, hs.subset hz1, hz2⟩⟩
      rw [List.mem_cons, List.mem_append] at hj
      rcases hj with rfl | hj | hj
      · exact Relation.ReflTransGen.refl
      · refine Relation.ReflTransGen.head ?_ (up ((List.sublist_append_left _ _).trans (List.sublist_cons_self _ _)) (b6 j hj))
        exact ⟨decide (ib < mem.size), List.mem_flatMap.mpr ⟨id, by simp, by rw [hoi, hlab]; simp⟩⟩
      · refine Relation.ReflTransGen.head ?_ (up ((List.sublist_append_right _ _).trans (List.sublist_cons_self _ _)) (a6 j hj))
        exact ⟨decide (ia < mem.size), List.mem_flatMap.mpr ⟨id, by simp, by rw [hoi, hlab]; simp⟩⟩

lemma range_split {n : ℕ} (hn : 2 ≤ n) : List.range (2 * n - 1) = List.range n ++ n :: List.range' (n + 1) (n - 2) := by
  have e : n :: List.range' (n + 1) (n - 2) = List.range' n (n - 1) := by
    rw [show n - 1 = (n - 2) + 1 by omega, List.range'_succ]
  rw [e, List.range_eq_range', List.range_eq_range']
  have := List.range'_append_1 (s := 0) (m := n) (n := n - 1)
  rw [Nat.zero_add] at this
  rw [this]
  congr 1
  omega

/-- **C75.** The output for Graphviz of a tree whose values carry their positions as indices (`index (values i) = i`), if the stack is large enough. There is one node statement
for every value, marked as leaf, and one for each of the `n - 1` internal nodes, all with different labels; every node but the root is the end of
exactly one edge, marked as pendant if it is a leaf, every internal node is the start of two, and every node can be reached from the root. -/
theorem graphviz_partial (I : Input α V w) (h : I.Valid) (hn : 2 ≤ I.n) (cap : ℕ) (hcap : Fits I cap) (sched : List ℕ) (hf : I.Finished sched)
    (index : α → ℕ) (hidx : ∀ i < I.n, index (I.values i) = i) (fuel : ℕ) (hfuel : 2 * I.n ≤ fuel) :
    ∃ out, visitAll (I.build sched) (graphviz (I.build sched) index) cap fuel = .done out ∧
      (nodes out).Perm ((List.range I.n).map (fun i => (.leaf i, true)) ++ (List.range' I.n (I.n - 1)).map (fun j => (.internal j, false))) ∧
      (targets out).Perm ((List.range I.n).map (fun i => (.leaf i, true)) ++ (List.range' (I.n + 1) (I.n - 2)).map (fun j => (.internal j, false))) ∧
      (sources out).Perm ((List.range' I.n (I.n - 1)).flatMap (fun j => [.internal j, .internal j])) ∧
      ∀ x b, (x, b) ∈ nodes out → Relation.ReflTransGen (fun a b => ∃ p, Stmt.edge a b p ∈ out) (.internal I.n) x := by
  obtain ⟨T, hcart, hs, hT⟩ := build_visit I h hn
  obtain ⟨hbs, l, hv, hp⟩ := hT sched hf
  obtain ⟨g1, g2, g3, g4, g5, g6⟩ := graphviz_tree (index := index) hv (out := fun j => (graphviz (I.build sched) index j).getD []) (fun _ => rfl)
  rw [hbs] at g3 g4 g5 g6
  have hix : ∀ j < I.n, index (I.values (I.perm j)) = I.perm j := fun j hj => hidx _ (h.perm_lt hj)
  have hpair : ∀ m k, I.n ≤ m → (List.range' m k).map (fun j => (lab I.n (fun j => index (I.values (I.perm j))) j, decide (j < I.n))) =
      (List.range' m k).map (fun j => (Label.internal j, false)) := by
    intro m k hm
    refine List.map_congr_left ?_
    intro j hj
    rw [List.mem_range'_1] at hj
    have : ¬ j < I.n := by omega
    simp [lab, this]
  have hleaf : ((List.range I.n).map (fun j => (lab I.n (fun j => index (I.values (I.perm j))) j, decide (j < I.n)))).Perm
      ((List.range I.n).map (fun i => (Label.leaf i, true))) := by
    have e : (List.range I.n).map (fun j => (lab I.n (fun j => index (I.values (I.perm j))) j, decide (j < I.n))) =
        ((List.range I.n).map I.perm).map (fun i => (Label.leaf i, true)) := by
      rw [List.map_map]
      refine List.map_congr_left ?_
      intro j hj
      rw [List.mem_range] at hj
      simp [lab, hj, hix j hj]
    rw [e]
    exact h.sorted.perm.map _
  have hcons : I.n :: List.range' (I.n + 1) (I.n - 2) = List.range' I.n (I.n - 1) := by
    rw [show I.n - 1 = (I.n - 2) + 1 by omega, List.range'_succ]
  have htail : l.tail.Perm (List.range I.n ++ List.range' (I.n + 1) (I.n - 2)) := by
    have hl : l = I.n :: l.tail := by
      cases l with
      | nil => simp at g2
      | cons x t => simp at g2; simp [g2]
    rw [hl, range_split hn] at hp
    exact (hp.trans List.perm_middle).cons_inv
  refine ⟨l.flatMap (fun j => (graphviz (I.build sched) index j).getD []), ?_, ?_, ?_, ?_, ?_⟩
  · unfold visitAll
    rw [hbs, if_neg (by omega)]
    have := visitLoop_tree (cap := cap) hv g1 [] [] (fuel - (2 * I.n - 1)) (by simpa using hcap T hcart)
    rw [hs, Nat.sub_add_cancel (by omega)] at this
    rw [this, show fuel - (2 * I.n - 1) = (fuel - 2 * I.n) + 1 by omega, visitLoop]
    simp
  · rw [g3]
    refine (hp.map _).trans ?_
    rw [range_split hn, hcons, List.map_append, hpair _ _ le_rfl]
    exact hleaf.append_right _
  · refine g4.trans ((htail.map _).trans ?_)
    rw [List.map_append, hpair _ _ (by omega)]
    exact hleaf.append_right _
  · rw [g5]
    refine List.Perm.flatMap_right _ ?_
    refine (hp.filter _).trans ?_
    rw [range_split hn, hcons, List.filter_append]
    rw [List.filter_eq_nil_iff.mpr (by intro j hj; rw [List.mem_range] at hj; simp; omega), List.nil_append,
      List.filter_eq_self.mpr (by intro j hj; rw [List.mem_range'_1] at hj; simp; omega)]
  · intro x b hx
    rw [g3, List.mem_map] at hx
    obtain ⟨j, hj, hjx⟩ := hx
    have := g6 j hj
    have e : lab I.n (fun j => index (I.values (I.perm j))) I.n = .internal I.n := by simp [lab]
    rw [e] at this
    simp only [Prod.mk.injEq] at hjx
    rw [← hjx.1]
    exact this

/-! ## Overflow of the stack -/

/-- 65 values, sorted: bits are set from the top of the code, one more for each value; the last two have the same code. -/
def rightCode (i : ℕ) : ℕ := 2 ^ 63 - 2 ^ (63 - i)

/-- Their hierarchy; values are their positions. -/
def rightInput : Input ℕ (Finset ℕ) 64 where
  n := 65
  values := fun i => i
  vol := fun a => {a}
  code := fun i => BitVec.ofNat 64 (rightCode i)
  perm := fun i => i

theorem rightInput_valid : rightInput.Valid where
  width := by decide
  fits := by decide +kernel
  sorted := ⟨by decide +kernel, by
    have : ∀ i < 64, (rightInput.code (rightInput.perm i)).toNat ≤ (rightInput.code (rightInput.perm (i + 1))).toNat := by decide +kernel
    intro i hi
    exact this i (by simp only [rightInput] at hi; omega)⟩
  top := by decide +kernel

/-- shape of the hierarchy: `j` nodes whose left child is a leaf, ending with leaf 64 -/
def rightSpine : ℕ → BTree
  | 0 => .leaf 64
  | j + 1 => .node (.leaf (63 - j)) (rightSpine j)

private abbrev rkey : ℕ → ℤ := deltaBits (fun i => rightInput.code (rightInput.perm i))

private lemma rkey_lt : ∀ s < 63, rkey (s + 1) < rkey s := by decide +kernel

private lemma rkey_anti {a b : ℕ} (h : a < b) (hb : b < 64) : rkey b < rkey a := by
  induction b with
  | zero => omega
  | succ b ih =>
    have := rkey_lt b (by omega)
    rcases Nat.lt_succ_iff_lt_or_eq.mp h with h | rfl
    · exact this.trans (ih h (by omega))
    · exact this

lemma rightSpine_cart : ∀ j ≤ 64, CartTree rkey (64 - j) 64 (rightSpine j)
  | 0, _ => .leaf 64
  | j + 1, hj => by
    have ih := rightSpine_cart j (by omega)
    rw [show 64 - (j + 1) = 63 - j by omega]
    refine .node (63 - j) (63 - j) 64 _ _ le_rfl (by omega) (.leaf _) ?_ (by intro s h1 h2; omega) ?_
    · rw [show 63 - j + 1 = 64 - j by omega]; exact ih
    · intro s h1 h2; exact rkey_anti h1 h2

lemma rightSpine_room (j : ℕ) : room (rightSpine j) = j + 1 := by
  induction j with
  | zero => rfl
  | succ j ih => simp only [rightSpine, room, ih]; omega

/-- **C75, defect.** With 65 values the 64 entries of the stack can be too few: on this tree the visit of all nodes writes outside of its stack. With
64 values this cannot happen (`fits_small`). -/
theorem visit_stack_overflow (sched : List ℕ) (hf : rightInput.Finished sched) (visit : ℕ → Option (List β)) (out : ℕ → List β)
    (ho : ∀ j < 129, visit j = some (out j)) (fuel : ℕ) (hfuel : 129 ≤ fuel) :
    visitAll (rightInput.build sched) visit 64 fuel = .fault := by
  obtain ⟨T, hcart, hs, hT⟩ := build_visit rightInput rightInput_valid (by decide)
  obtain ⟨hbs, l, hv, hp⟩ := hT sched hf
  have hTs : T = rightSpine 64 := hcart.unique (rightSpine_cart 64 le_rfl)
  subst hTs
  have hn : rightInput.n = 65 := rfl
  have := visitLoop_overflow (cap := 64) hv (visit := visit) (out := out) (fun j hj => ho j (by
    have := List.mem_range.mp (hp.subset hj); rw [hn] at this; omega)) [] [] (fuel - 129) (by simp) (by rw [rightSpine_room]; simp)
  rw [hs, hn, Nat.sub_add_cancel hfuel] at this
  unfold visitAll
  rw [hbs, hn, if_neg (by omega)]
  exact this

/-- **C75, defect.** A tree of at most one value is not visited at all: an assertion fails (without assertions, a node that does not exist is
visited). -/
theorem visit_all_small (I : Input α V w) (hn : I.n ≤ 1) (sched : List ℕ) (visit : ℕ → Option (List β)) (cap fuel : ℕ) :
    visitAll (I.build sched) visit cap fuel = .fault := by
  unfold visitAll
  rw [build_size, if_pos hn]

/-! ## Non-vacuity -/

open Traversal (exampleInput exampleInput_valid)

example : Fits exampleInput 64 := fits_small exampleInput (by decide) (by decide)

example : ∀ i < exampleInput.n, (fun a : ℕ => a) (exampleInput.values i) = i := fun _ _ => rfl

example : ∃ sched, rightInput.Finished sched := by
  obtain ⟨s, hs⟩ := exists_complete rightInput.params (rightInput_valid.keys (by decide))
  exact ⟨s, fun _ => hs⟩

end ArborX.Viz
