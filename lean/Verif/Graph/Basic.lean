import Mathlib.Logic.Relation
import Mathlib.Data.Finset.Card
import Mathlib.Data.Finset.Image
import Mathlib.Data.Finset.Range
import Mathlib.Order.Interval.Finset.Nat

/-!
# Specification: connectivity by a list of edges, and counting of components

Independent of the code. Vertices are `0 .. n-1`, an edge is a pair.
-/

namespace ArborX.Graph

/-- `u` and `v` are joined by a path of edges of `E`. -/
def Conn (E : List (ℕ × ℕ)) : ℕ → ℕ → Prop := Relation.EqvGen (fun a b => (a, b) ∈ E)

/-- All vertices below `n` are joined. -/
def Connects (n : ℕ) (E : List (ℕ × ℕ)) : Prop := ∀ u < n, ∀ v < n, Conn E u v

/-- The edges of a spanning tree on `n` vertices: `n - 1` edges that join all vertices. -/
structure SpanningTree (n : ℕ) (E : List (ℕ × ℕ)) : Prop where
  range : ∀ e ∈ E, e.1 < n ∧ e.2 < n
  length : E.length + 1 = n
  connects : Connects n E

lemma Conn.refl (E : List (ℕ × ℕ)) (u : ℕ) : Conn E u u := Relation.EqvGen.refl u
lemma Conn.symm {E : List (ℕ × ℕ)} {u v : ℕ} (h : Conn E u v) : Conn E v u := Relation.EqvGen.symm _ _ h
lemma Conn.trans {E : List (ℕ × ℕ)} {u v w : ℕ} (h : Conn E u v) (h' : Conn E v w) : Conn E u w :=
  Relation.EqvGen.trans _ _ _ h h'
lemma Conn.edge {E : List (ℕ × ℕ)} {u v : ℕ} (h : (u, v) ∈ E) : Conn E u v := Relation.EqvGen.rel _ _ h

lemma Conn.equiv (E : List (ℕ × ℕ)) : Equivalence (Conn E) :=
  ⟨Conn.refl E, Conn.symm, Conn.trans⟩

/-- Connectivity is the least equivalence relation containing the edges. -/
lemma Conn.min {E : List (ℕ × ℕ)} {R : ℕ → ℕ → Prop} (hR : Equivalence R) (h : ∀ e ∈ E, R e.1 e.2) {u v : ℕ}
    (c : Conn E u v) : R u v := by
  induction c with
  | rel a b hab => exact h (a, b) hab
  | refl a => exact hR.refl a
  | symm a b _ ih => exact hR.symm ih
  | trans a b c _ _ ih1 ih2 => exact hR.trans ih1 ih2

lemma Conn.of_conn {E E' : List (ℕ × ℕ)} (h : ∀ e ∈ E, Conn E' e.1 e.2) {u v : ℕ} (c : Conn E u v) : Conn E' u v :=
  Conn.min (Conn.equiv E') h c

lemma Conn.mono {E E' : List (ℕ × ℕ)} (h : E ⊆ E') {u v : ℕ} (c : Conn E u v) : Conn E' u v :=
  Conn.of_conn (fun _ he => Conn.edge (h he)) c

lemma Conn.nil {u v : ℕ} (c : Conn [] u v) : u = v :=
  Conn.min (R := fun a b => a = b) ⟨fun _ => rfl, fun h => h.symm, fun h h' => h.trans h'⟩ (by simp) c

/-- Adding one edge joins two components. -/
lemma conn_cons {E : List (ℕ × ℕ)} {a b u v : ℕ} : Conn ((a, b) :: E) u v ↔
    Conn E u v ∨ (Conn E u a ∧ Conn E b v) ∨ (Conn E u b ∧ Conn E a v) := by
  constructor
  · intro c
    induction c with
    | rel x y h =>
      rcases List.mem_cons.mp h with h | h
      · cases h; exact .inr (.inl ⟨Conn.refl _ _, Conn.refl _ _⟩)
      · exact .inl (Conn.edge h)
    | refl x => exact .inl (Conn.refl _ _)
    | symm x y _ ih =>
      rcases ih with h | ⟨h1, h2⟩ | ⟨h1, h2⟩
      · exact .inl h.symm
      · exact .inr (.inr ⟨h2.symm, h1.symm⟩)
      · exact .inr (.inl ⟨h2.symm, h1.symm⟩)
    | trans x y z _ _ ih1 ih2 =>
      rcases ih1 with h | ⟨h1, h2⟩ | ⟨h1, h2⟩ <;> rcases ih2 with k | ⟨k1, k2⟩ | ⟨k1, k2⟩
      · exact .inl (h.trans k)
      · exact .inr (.inl ⟨h.trans k1, k2⟩)
      · exact .inr (.inr ⟨h.trans k1, k2⟩)
      · exact .inr (.inl ⟨h1, h2.trans k⟩)
      · exact .inr (.inl ⟨h1, k2⟩)
      · exact .inl (h1.trans k2)
      · exact .inr (.inr ⟨h1, h2.trans k⟩)
      · exact .inl (h1.trans k2)
      · exact .inr (.inr ⟨h1, k2⟩)
  · have m : ∀ {x y}, Conn E x y → Conn ((a, b) :: E) x y := fun c => c.mono (List.subset_cons_self _ _)
    have e : Conn ((a, b) :: E) a b := Conn.edge List.mem_cons_self
    rintro (h | ⟨h1, h2⟩ | ⟨h1, h2⟩)
    · exact m h
    · exact (m h1).trans (e.trans (m h2))
    · exact (m h1).trans (e.symm.trans (m h2))

/-! ## Counting components -/

/-- Component labels by relabelling. -/
def lab : List (ℕ × ℕ) → ℕ → ℕ
  | [], v => v
  | e :: E, v => if lab E v = lab E e.2 then lab E e.1 else lab E v

lemma lab_iff (E : List (ℕ × ℕ)) (u v : ℕ) : lab E u = lab E v ↔ Conn E u v := by
  induction E generalizing u v with
  | nil => exact ⟨fun h => by rw [show u = v from h]; exact Conn.refl _ _, fun h => Conn.nil h⟩
  | cons e E ih =>
    obtain ⟨a, b⟩ := e
    rw [conn_cons, ← ih, ← ih, ← ih, ← ih, ← ih]
    simp only [lab]
    split_ifs with h1 h2 h2
    · simp [h1, h2]
    · constructor
      · intro h; exact .inr (.inr ⟨h1, h⟩)
      · rintro (h | ⟨h, h'⟩ | ⟨h, h'⟩)
        · exact absurd (h.symm.trans h1) h2
        · exact absurd h'.symm h2
        · exact h'
    · constructor
      · intro h; exact .inr (.inl ⟨h, h2.symm⟩)
      · rintro (h | ⟨h, h'⟩ | ⟨h, h'⟩)
        · exact absurd (h.trans h2) h1
        · exact h
        · exact absurd h h1
    · constructor
      · intro h; exact .inl h
      · rintro (h | ⟨h, h'⟩ | ⟨h, h'⟩)
        · exact h
        · exact absurd h'.symm h2
        · exact absurd h h1

/-- Number of components. -/
def comps (n : ℕ) (E : List (ℕ × ℕ)) : ℕ := ((Finset.range n).image (lab E)).card

lemma comps_nil (n : ℕ) : comps n [] = n := by
  unfold comps
  rw [Finset.card_image_of_injective, Finset.card_range]
  intro a b h; exact h

lemma comps_mono {n : ℕ} {E E' : List (ℕ × ℕ)} (h : ∀ u < n, ∀ v < n, Conn E u v → Conn E' u v) :
    comps n E' ≤ comps n E := by
  unfold comps
  apply Finset.card_le_card_of_surjOn (fun l => if hl : ∃ u < n, lab E u = l then lab E' hl.choose else 0)
  intro l hl
  obtain ⟨u, hu, rfl⟩ := Finset.mem_image.mp (Finset.mem_coe.mp hl)
  have hu := Finset.mem_range.mp hu
  refine ⟨lab E u, Finset.mem_coe.mpr (Finset.mem_image_of_mem _ (Finset.mem_range.mpr hu)), ?_⟩
  have ex : ∃ v < n, lab E v = lab E u := ⟨u, hu, rfl⟩
  dsimp only
  rw [dif_pos ex]
  obtain ⟨h1, h2⟩ := ex.choose_spec
  exact (lab_iff _ _ _).mpr (h _ h1 _ hu ((lab_iff _ _ _).mp h2))

lemma comps_congr {n : ℕ} {E E' : List (ℕ × ℕ)} (h : ∀ u < n, ∀ v < n, (Conn E u v ↔ Conn E' u v)) :
    comps n E' = comps n E :=
  le_antisymm (comps_mono (fun u hu v hv => (h u hu v hv).mp)) (comps_mono (fun u hu v hv => (h u hu v hv).mpr))

lemma comps_cons (n : ℕ) (e : ℕ × ℕ) (E : List (ℕ × ℕ)) : comps n E ≤ comps n (e :: E) + 1 := by
  unfold comps
  have : ((Finset.range n).image (lab E)).erase (lab E e.2) ⊆ (Finset.range n).image (lab (e :: E)) := by
    intro l hl
    obtain ⟨h1, h2⟩ := Finset.mem_erase.mp hl
    obtain ⟨u, hu, rfl⟩ := Finset.mem_image.mp h2
    refine Finset.mem_image.mpr ⟨u, hu, ?_⟩
    simp only [lab]
    rw [if_neg h1]
  have := Finset.card_le_card this
  have := Finset.pred_card_le_card_erase (s := (Finset.range n).image (lab E)) (a := lab E e.2)
  omega

lemma le_comps (n : ℕ) (E : List (ℕ × ℕ)) : n ≤ comps n E + E.length := by
  induction E with
  | nil => rw [comps_nil]; simp
  | cons e E ih => have := comps_cons n e E; rw [List.length_cons]; omega

lemma comps_cons_lt {n : ℕ} {a b : ℕ} {E : List (ℕ × ℕ)} (ha : a < n) (hb : b < n) (h : ¬ Conn E a b) :
    comps n ((a, b) :: E) < comps n E := by
  unfold comps
  apply Finset.card_lt_card
  rw [Finset.ssubset_iff_of_subset]
  · refine ⟨lab E b, Finset.mem_image_of_mem _ (Finset.mem_range.mpr hb), ?_⟩
    intro hm
    obtain ⟨u, hu, e⟩ := Finset.mem_image.mp hm
    simp only [lab] at e
    split_ifs at e with h1
    · exact h ((lab_iff _ _ _).mp e)
    · exact h1 e
  · intro l hl
    obtain ⟨u, hu, rfl⟩ := Finset.mem_image.mp hl
    simp only [lab]
    split_ifs
    · exact Finset.mem_image_of_mem _ (Finset.mem_range.mpr ha)
    · exact Finset.mem_image_of_mem _ hu

lemma comps_connects {n : ℕ} (hn : 0 < n) {E : List (ℕ × ℕ)} : Connects n E ↔ comps n E = 1 := by
  constructor
  · intro h
    unfold comps
    rw [Finset.card_eq_one]
    refine ⟨lab E 0, ?_⟩
    ext l
    rw [Finset.mem_singleton, Finset.mem_image]
    constructor
    · rintro ⟨u, hu, rfl⟩
      exact (lab_iff _ _ _).mpr (h u (Finset.mem_range.mp hu) 0 hn)
    · rintro rfl
      exact ⟨0, Finset.mem_range.mpr hn, rfl⟩
  · intro h u hu v hv
    unfold comps at h
    obtain ⟨l, hl⟩ := Finset.card_eq_one.mp h
    have a : lab E u ∈ ({l} : Finset ℕ) := hl ▸ Finset.mem_image_of_mem _ (Finset.mem_range.mpr hu)
    have b : lab E v ∈ ({l} : Finset ℕ) := hl ▸ Finset.mem_image_of_mem _ (Finset.mem_range.mpr hv)
    rw [Finset.mem_singleton] at a b
    exact (lab_iff _ _ _).mp (a.trans b.symm)

lemma comps_pos {n : ℕ} (hn : 0 < n) (E : List (ℕ × ℕ)) : 0 < comps n E := by
  unfold comps
  exact Finset.card_pos.mpr ⟨lab E 0, Finset.mem_image_of_mem _ (Finset.mem_range.mpr hn)⟩

/-- Every edge of a spanning tree is a bridge: the others do not join its ends. -/
lemma SpanningTree.bridge {n : ℕ} {A B : List (ℕ × ℕ)} {e : ℕ × ℕ} (h : SpanningTree n (A ++ e :: B)) :
    ¬ Conn (A ++ B) e.1 e.2 := by
  intro hc
  have hn : 0 < n := by have := h.length; omega
  have h1 := (comps_connects hn).mp h.connects
  have h2 : comps n (A ++ B) = 1 := by
    refine (comps_connects hn).mp (fun u hu v hv => ?_)
    refine Conn.of_conn (fun f hf => ?_) (h.connects u hu v hv)
    rcases List.mem_append.mp hf with hf | hf
    · exact Conn.edge (List.mem_append_left _ hf)
    · rcases List.mem_cons.mp hf with rfl | hf
      · exact hc
      · exact Conn.edge (List.mem_append_right _ hf)
  have := le_comps n (A ++ B)
  have hl := h.length
  simp only [List.length_append, List.length_cons] at *
  omega

end ArborX.Graph
