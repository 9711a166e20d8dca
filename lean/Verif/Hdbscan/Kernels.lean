import Verif.Hdbscan.Model
import Verif.Perm.Theorems

/-!
# The kernels of the mode `HDBSCAN` (lemmas)
-/

namespace ArborX.Hdbscan

open Function (update)
open Boruvka
open Mst (DirectedEdge WeightedEdge)

variable {V W : Type} [LinearOrder W] [BoundedOrder W]
variable {n : ℕ} {lab : ℕ → ℤ} {out : ℕ → DirectedEdge W}

omit [LinearOrder W] [BoundedOrder W] in
lemma next_eq (ht : ∀ c, Rep n lab c → (out c).target < n)
    (hcl : ∀ c, Rep n lab c → Rep n lab (nbr lab out c)) {i : ℕ} (hr : Rep n lab i) :
    nextComp n lab out i = some (nextOf (nbr lab out) i) := by
  have e1 := ht i hr
  have e2 : (out (comp lab (out i).target)).target < n := ht _ (hcl i hr)
  unfold nextComp
  dsimp only
  rw [if_neg (by omega), if_neg (by omega)]
  rfl

omit [LinearOrder W] [BoundedOrder W] in
/-- `UnidirectionalEdgesTag`: the edges appended and where they are. -/
lemma mapEdges_spec (hl : Labelling n lab) (ht : ∀ c, Rep n lab c → (out c).target < n)
    (hcl : ∀ c, Rep n lab c → Rep n lab (nbr lab out c)) :
    ∀ (ord : List ℕ) (edges : List (WeightedEdge W)) (map : ℕ → Option ℕ), (∀ i ∈ ord, i < n) → ord.Nodup →
      edges.length + (ord.filter (moving lab (nbr lab out))).length ≤ n - 1 →
      ∃ map', mapEdges n lab out edges map ord =
          some (edges ++ (ord.filter (moving lab (nbr lab out))).map (newEdge out), map') ∧
        (∀ q c, (ord.filter (moving lab (nbr lab out)))[q]? = some c → map' c = some (edges.length + q)) ∧
        ∀ c, c ∉ ord.filter (moving lab (nbr lab out)) → map' c = map c := by
  intro ord
  unfold mapEdges
  induction ord with
  | nil => intro edges map _ _ _; exact ⟨map, by simp, by simp, fun _ _ => rfl⟩
  | cons i ord ih =>
    intro edges map ho hnd hlen
    have hi := ho i List.mem_cons_self
    have ho' : ∀ i ∈ ord, i < n := fun i hi => ho i (List.mem_cons_of_mem _ hi)
    rw [List.nodup_cons] at hnd
    rw [List.foldl_cons, Option.bind_some]
    have hrep : (i : ℤ) = lab i ↔ comp lab i = i := by
      have := hl.cast hi
      constructor
      · intro e; rw [← e] at this; exact Nat.cast_inj.mp this
      · intro e; rw [e] at this; exact this
    by_cases hr : comp lab i = i
    · have en := next_eq ht hcl ⟨hi, hr⟩
      by_cases hf : nextOf (nbr lab out) i = i
      · have em : moving lab (nbr lab out) i = false := by simp [moving, hf]
        rw [List.filter_cons, em] at hlen ⊢
        have es : mapStep n lab out (edges, map) i = some (edges, map) := by
          unfold mapStep
          rw [if_neg (not_not.mpr (hrep.mpr hr)), en]
          dsimp only
          rw [if_pos hf]
        rw [es]
        exact ih edges map ho' hnd.2 hlen
      · have em : moving lab (nbr lab out) i = true := by simp [moving, hf, hr]
        rw [List.filter_cons, em, if_pos rfl] at hlen ⊢
        rw [List.length_cons] at hlen
        have es : mapStep n lab out (edges, map) i = some (edges ++ [newEdge out i], update map i (some edges.length)) := by
          unfold mapStep
          rw [if_neg (not_not.mpr (hrep.mpr hr)), en]
          dsimp only
          rw [if_neg hf, if_pos (by omega)]
          rfl
        obtain ⟨map', h1, h2, h3⟩ := ih (edges ++ [newEdge out i]) (update map i (some edges.length)) ho' hnd.2
          (by rw [List.length_append, List.length_singleton]; omega)
        have hni : i ∉ ord.filter (moving lab (nbr lab out)) := fun h => hnd.1 (List.mem_filter.mp h).1
        refine ⟨map', ?_, ?_, ?_⟩
        · rw [es, h1, List.map_cons, List.append_assoc]
          rfl
        · intro q c hq
          match q with
          | 0 =>
            rw [List.getElem?_cons_zero, Option.some.injEq] at hq
            subst hq
            rw [h3 i hni, Function.update_self]
            rfl
          | q + 1 =>
            rw [List.getElem?_cons_succ] at hq
            rw [h2 q c hq, List.length_append, List.length_singleton]
            congr 1
            omega
        · intro c hc
          rw [List.mem_cons, not_or] at hc
          rw [h3 c hc.2, Function.update_of_ne hc.1]
    · have em : moving lab (nbr lab out) i = false := by simp [moving, hr]
      rw [List.filter_cons, em] at hlen ⊢
      have es : mapStep n lab out (edges, map) i = some (edges, map) := by
        unfold mapStep
        rw [if_pos (hrep.not.mpr hr)]
      rw [es]
      exact ih edges map ho' hnd.2 hlen

omit [LinearOrder W] [BoundedOrder W] in
/-- `BidirectionalEdgesTag`: a component where the walk stops takes the entry of its neighbour. -/
lemma biEdges_spec (hl : Labelling n lab) (ht : ∀ c, Rep n lab c → (out c).target < n)
    (hcl : ∀ c, Rep n lab c → Rep n lab (nbr lab out c))
    (hfix : ∀ c, Rep n lab c → nextOf (nbr lab out) c = c → nextOf (nbr lab out) (nbr lab out c) ≠ nbr lab out c) :
    ∀ (ord : List ℕ) (map : ℕ → Option ℕ), (∀ i ∈ ord, i < n) →
      (∀ c, Rep n lab c → nextOf (nbr lab out) c = c → (map (nbr lab out c)).isSome) →
      ∃ map', biEdges n lab out map ord = some map' ∧
        (∀ c ∈ ord, Rep n lab c → nextOf (nbr lab out) c = c → map' c = map (nbr lab out c)) ∧
        ∀ c, ¬ (c ∈ ord ∧ Rep n lab c ∧ nextOf (nbr lab out) c = c) → map' c = map c := by
  intro ord
  unfold biEdges
  induction ord with
  | nil => intro map _ _; exact ⟨map, rfl, by simp, fun _ _ => rfl⟩
  | cons i ord ih =>
    intro map ho hs
    have hi := ho i List.mem_cons_self
    have ho' : ∀ i ∈ ord, i < n := fun i hi => ho i (List.mem_cons_of_mem _ hi)
    rw [List.foldl_cons, Option.bind_some]
    have hrep : (i : ℤ) = lab i ↔ comp lab i = i := by
      have := hl.cast hi
      constructor
      · intro e; rw [← e] at this; exact Nat.cast_inj.mp this
      · intro e; rw [e] at this; exact this
    by_cases hm : Rep n lab i ∧ nextOf (nbr lab out) i = i
    · obtain ⟨hr, hf⟩ := hm
      have en := next_eq ht hcl hr
      obtain ⟨a, ha⟩ := Option.isSome_iff_exists.mp (hs i hr hf)
      have es : biStep n lab out map i = some (update map i (some a)) := by
        unfold biStep
        rw [if_neg (not_not.mpr (hrep.mpr hr.2)), en]
        dsimp only
        rw [if_neg (not_not.mpr hf)]
        have ha' : map (comp lab (out i).target) = some a := ha
        rw [ha']
      have hne : ∀ c, Rep n lab c → nextOf (nbr lab out) c = c → nbr lab out c ≠ i := by
        intro c hc hcf e
        apply hfix c hc hcf
        rw [e]; exact hf
      obtain ⟨map', h1, h2, h3⟩ := ih (update map i (some a)) ho' (by
        intro c hc hcf
        rw [Function.update_of_ne (hne c hc hcf)]
        exact hs c hc hcf)
      refine ⟨map', by rw [es]; exact h1, ?_, ?_⟩
      · intro c hc hcr hcf
        by_cases hci : c ∈ ord
        · rw [h2 c hci hcr hcf, Function.update_of_ne (hne c hcr hcf)]
        · have : c = i := by
            rcases List.mem_cons.mp hc with h | h
            · exact h
            · exact absurd h hci
          subst this
          rw [h3 c (fun h => hci h.1), Function.update_self, ha]
      · intro c hc
        have hci : c ≠ i := by
          rintro rfl
          exact hc ⟨List.mem_cons_self, hr, hf⟩
        rw [h3 c (fun h => hc ⟨List.mem_cons_of_mem _ h.1, h.2⟩), Function.update_of_ne hci]
    · have es : biStep n lab out map i = some map := by
        unfold biStep
        by_cases hr : comp lab i = i
        · rw [if_neg (not_not.mpr (hrep.mpr hr)), next_eq ht hcl ⟨hi, hr⟩]
          dsimp only
          rw [if_pos (fun h => hm ⟨⟨hi, hr⟩, h⟩)]
        · rw [if_pos (hrep.not.mpr hr)]
      obtain ⟨map', h1, h2, h3⟩ := ih map ho' hs
      refine ⟨map', by rw [es]; exact h1, ?_, ?_⟩
      · intro c hc hcr hcf
        rcases List.mem_cons.mp hc with rfl | h
        · exact absurd ⟨hcr, hcf⟩ hm
        · exact h2 c h hcr hcf
      · intro c hc
        exact h3 c (fun h => hc ⟨List.mem_cons_of_mem _ h.1, h.2⟩)

omit [LinearOrder W] [BoundedOrder W] in
/-- `assignVertexParents` in the first iteration. -/
lemma vertParents_spec {mem : Mem ℕ V} {value : ℕ → ℕ} (hn : 2 ≤ mem.size)
    (hleaf : ∀ i < mem.size, ∃ lf, mem.leaf i = some lf ∧ lf.value = value i)
    (hval : ∀ i < mem.size, value i < mem.size) (hinj : ∀ i < mem.size, ∀ j < mem.size, value i = value j → i = j)
    {map : ℕ → Option ℕ} {α : ℕ → ℕ} (hα : ∀ i < mem.size, map i = some (α i))
    (hsrc : ∀ e < mem.size, (out e).source < mem.size ∧ comp lab (out e).source = e)
    {ord : List ℕ} (ho : ord.Perm (List.range mem.size)) (par : ℕ → Option ℤ) :
    ∃ par', vertParents mem lab out map par ord = some par' ∧
      ∀ i < mem.size, par' (value i + (mem.size - 1)) = some (α i : ℤ) := by
  have hlt : ∀ i ∈ ord, i < mem.size := fun i hi => List.mem_range.mp (ho.subset hi)
  have hnd : ord.Nodup := ho.nodup_iff.mpr List.nodup_range
  obtain ⟨par', h1, h2, -⟩ := Perm.foldl_writes (fun i => value i + (mem.size - 1)) (fun i => some (α i : ℤ)) ord
    (by
      refine List.Pairwise.imp_of_mem ?_ hnd
      intro a b ha hb hab e
      exact hab (hinj a (hlt a ha) b (hlt b hb) (by omega))) par (fun i => i < mem.size) hlt
  refine ⟨par', ?_, fun i hi => h2 i (ho.symm.subset (List.mem_range.mpr hi))⟩
  rw [← h1]
  unfold vertParents
  have : ∀ (ord : List ℕ) (o : Option (ℕ → Option ℤ)), (∀ i ∈ ord, i < mem.size) →
      ord.foldl (fun o e => o.bind (fun par => vertStep mem lab out map par e)) o =
      ord.foldl (fun o i => o.bind (fun out => if i < mem.size then
        some (update out (value i + (mem.size - 1)) (some (α i : ℤ))) else none)) o := by
    intro ord
    induction ord with
    | nil => intro _ _; rfl
    | cons e ord ih =>
      intro o ho
      rw [List.foldl_cons, List.foldl_cons, ih _ (fun i hi => ho i (List.mem_cons_of_mem _ hi))]
      congr 1
      cases o with
      | none => rfl
      | some par =>
        have he := ho e List.mem_cons_self
        obtain ⟨s1, s2⟩ := hsrc e he
        obtain ⟨lf, l1, l2⟩ := hleaf e he
        have hv := hval e he
        rw [Option.bind_some, Option.bind_some, if_pos he]
        unfold vertStep
        rw [if_neg (by omega)]
        dsimp only
        rw [s2, l1, hα e he]
        dsimp only
        rw [l2, if_pos (by omega)]
  exact this ord _ hlt

end ArborX.Hdbscan
