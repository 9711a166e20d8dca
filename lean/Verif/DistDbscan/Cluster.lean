import Verif.DistDbscan.Resolve
import Verif.DistDbscan.Spec
import Verif.DistDbscan.MergeTheorems

/-!
# Lemmas: what the processes see and find (C48)
-/

namespace ArborX.DistDbscan

open Distributed BVH Traversal Dbscan

variable {X V : Type} {w : ℕ}

/-! ## The points of all processes -/

lemma flatMap_get {Y : Type} (rows : ℕ → List Y) {n r i : ℕ} (hr : r < n) (hi : i < (rows r).length) :
    ((List.range n).flatMap rows)[Crs.scan (fun s => (rows s).length) r + i]? = (rows r)[i]? := by
  obtain ⟨k, rfl⟩ : ∃ k, n = r + (1 + k) := ⟨n - r - 1, by omega⟩
  rw [List.range_add, List.flatMap_append, List.getElem?_append_right (by rw [Crs.scan_length]; omega), Crs.scan_length,
    Nat.add_sub_cancel_left, List.range_add, List.map_append, List.flatMap_append, List.getElem?_append_left (by simpa using hi)]
  simp

lemma In.all_length (D : In X V) : D.all.length = D.rankOffset D.P := Crs.scan_length _ _

lemma In.all_get (D : In X V) {r i : ℕ} (hr : r < D.P) (hi : i < (D.points r).length) : D.all[D.rankOffset r + i]? = (D.points r)[i]? :=
  flatMap_get D.points hr hi

lemma In.rank_lt (D : In X V) {r i : ℕ} (hr : r < D.P) (hi : i < (D.points r).length) : D.rankOffset r + i < D.all.length := by
  have := D.all_get hr hi
  rw [List.getElem?_eq_getElem hi] at this
  exact (List.getElem?_eq_some_iff.mp this).1

lemma In.exists_owner (D : In X V) {g : ℕ} (hg : g < D.all.length) : ∃ r < D.P, ∃ i < (D.points r).length, g = D.rankOffset r + i := by
  obtain ⟨t, ht, h1, h2⟩ := exists_thread (cut := D.rankOffset) (n := D.all.length) (nt := D.P) rfl (D.all_length).symm hg
  refine ⟨t, ht, g - D.rankOffset t, ?_, by omega⟩
  unfold In.rankOffset at *
  simp only [Crs.scan] at h2
  omega

lemma In.rank_inj (D : In X V) {r s i j : ℕ} (hi : i < (D.points r).length) (hj : j < (D.points s).length)
    (h : D.rankOffset r + i = D.rankOffset s + j) : r = s ∧ i = j :=
  Crs.scan_disjoint (fun s => (D.points s).length) hi hj h

lemma nearOf_some {near : X → X → Bool} {l : List X} {i j : ℕ} {p q : X} (hi : l[i]? = some p) (hj : l[j]? = some q) :
    nearOf near l i j = near p q := by
  unfold nearOf
  rw [hi, hj]

/-! ## Core points -/

lemma filter_length (near : X → X → Bool) (l : List X) {i : ℕ} {p : X} (hi : l[i]? = some p) :
    (l.filter (near p)).length = ((List.range l.length).filter (nearOf near l i)).length := by
  have h1 : l = (List.range l.length).map (fun j => l.getD j p) := by
    apply List.ext_getElem
    · simp
    · intro j h1 h2; simp [List.getD_eq_getElem?_getD, h1]
  conv_lhs => rw [h1]
  rw [List.filter_map, List.length_map]
  congr 1
  apply List.filter_congr
  intro j hj
  have hj := List.mem_range.mp hj
  simp only [Function.comp]
  rw [nearOf_some hi (q := l.getD j p) (by simp [List.getD_eq_getElem?_getD, hj])]

lemma isCore_spec [SemilatticeSup V] [OrderBot V] (D : In X V) (r : ℕ) (ghosts : List X) {id : ℕ} (hid : id < (D.points r).length) :
    D.isCore r ghosts id = true ↔
      D.minPts = 2 ∨ Core (D.points r ++ ghosts).length (nearOf D.near (D.points r ++ ghosts)) D.minPts id := by
  unfold In.isCore Core
  rw [List.getElem?_eq_getElem hid]
  simp only [Bool.or_eq_true, decide_eq_true_eq]
  rw [filter_length D.near (D.points r ++ ghosts) (i := id) (p := (D.points r)[id])]
  rw [List.getElem?_append_left hid, List.getElem?_eq_getElem hid]

/-! ## Merge pairs of one point -/

lemma pairsOf_sound {core : Bool} {own : ℤ} {L : List ℤ} {p : Pair} (ho : own ≠ -1) (hp : p ∈ pairsOf core own L) :
    core = true ∧ L ≠ [] ∧ p.2 < p.1 ∧ p.1 ∈ own :: L ∧ p.2 ∈ own :: L := by
  unfold pairsOf at hp
  by_cases h1 : L.length + (if own ≠ -1 then 1 else 0) < 2
  · rw [if_pos h1] at hp; simp at hp
  rw [if_neg h1] at hp
  by_cases h2 : (!core) = true
  · rw [if_pos h2] at hp; simp at hp
  rw [if_neg h2] at hp
  simp only [if_pos ho] at hp h1
  obtain ⟨k1, k2, k3⟩ := foldl_min L own
  have hm : L.foldl (fun m l => min l m) own ∈ own :: L := by
    rcases k3 with k3 | k3
    · rw [k3]; simp
    · exact List.mem_cons_of_mem _ k3
  refine ⟨by simpa using h2, fun e => by simp [e] at h1, ?_⟩
  rw [List.mem_append] at hp
  rcases hp with hp | hp
  · split_ifs at hp with h
    · rw [List.mem_singleton] at hp
      subst hp
      exact ⟨lt_of_le_of_ne k1 (fun e => h.2 e.symm), by simp, hm⟩
    · simp at hp
  · obtain ⟨l, hl, rfl⟩ := List.mem_map.mp hp
    rw [List.mem_filter, decide_eq_true_eq] at hl
    exact ⟨lt_of_le_of_ne (k2 l hl.1) (fun e => hl.2 e.symm), List.mem_cons_of_mem _ hl.1, hm⟩

lemma pairsOf_complete {own : ℤ} {L : List ℤ} {x : ℤ} (ho : own ≠ -1) (hx : x ∈ L) :
    ∃ m, (x = m ∨ (x, m) ∈ pairsOf true own L) ∧ (own = m ∨ (own, m) ∈ pairsOf true own L) := by
  refine ⟨L.foldl (fun m l => min l m) own, ?_⟩
  have hpos := List.length_pos_of_mem hx
  unfold pairsOf
  rw [if_neg (by rw [if_pos ho]; omega), if_neg (by simp)]
  simp only [if_pos ho]
  constructor
  · by_cases h : x = L.foldl (fun m l => min l m) own
    · exact Or.inl h
    · right
      rw [List.mem_append]
      right
      exact List.mem_map.mpr ⟨x, List.mem_filter.mpr ⟨hx, by simpa using h⟩, rfl⟩
  · by_cases h : own = L.foldl (fun m l => min l m) own
    · exact Or.inl h
    · right
      rw [List.mem_append, if_pos ⟨ho, h⟩]
      left
      simp

lemma ownLabel_spec {core : Bool} {own : ℤ} {L : List ℤ} (ho : own ≠ -1) :
    ownLabel core own L = own ∨ (own, ownLabel core own L) ∈ pairsOf core own L := by
  unfold ownLabel pairsOf
  by_cases h1 : L.length + (if own ≠ -1 then 1 else 0) < 2
  · rw [if_pos h1]; exact Or.inl rfl
  rw [if_neg h1, if_neg h1]
  by_cases h2 : (!core) = true
  · rw [if_pos h2, if_neg ho]; exact Or.inl rfl
  rw [if_neg h2, if_neg h2]
  simp only [if_pos ho]
  by_cases h : own = L.foldl (fun m l => min l m) own
  · rw [if_neg (fun h' => h'.2 h)]; exact Or.inl rfl
  · rw [if_pos ⟨ho, h⟩, if_pos ⟨ho, h⟩]
    right
    rw [List.mem_append]
    left
    simp

/-! ## The views of the processes -/

/-- The label of a point is that of a point. -/
lemma label_range {star : Bool} {n : ℕ} {near : ℕ → ℕ → Bool} {minPts : ℕ} {lab : ℕ → ℤ} (hc : IsClustering star n near minPts lab)
    (hk : Canonical n near minPts lab) {i : ℕ} (hi : i < n) : lab i = -1 ∨ ∃ k < n, lab i = (k : ℤ) := by
  by_cases h : Core n near minPts i
  · obtain ⟨k, h1, h2, -⟩ := hk i hi h
    exact Or.inr ⟨k, h2, h1⟩
  · unfold IsClustering at hc
    cases star
    · simp only [Bool.false_eq_true, if_false] at hc
      by_cases hn : NearCore n near minPts i
      · obtain ⟨j, h1, h2, -, h3⟩ := hc.border i hi h hn
        obtain ⟨k, h4, h5, -⟩ := hk j h1 h2
        exact Or.inr ⟨k, h5, h3.trans h4⟩
      · exact Or.inl (hc.noise i hi h hn)
    · simp only [if_true] at hc
      exact Or.inl (hc.noise i hi h)

variable [SemilatticeSup V] [OrderBot V]

/-- Everything about the ghosts and the local clusterings. -/
structure Found' (D : In X V) (E : XEnv X w) (gp : ℕ → List X) (gi : ℕ → List ℕ) (gr : ℕ → List ℤ) (F : ℕ → List (ℕ × ℕ)) (l : ℕ → List ℤ)
    (star : Bool) (own idx : ℕ → ℕ) : Prop where
  points : ∀ t < D.P, (gp t).map some = (F t).map (fun e => (D.points e.1)[e.2]?)
  ids : ∀ t < D.P, gi t = (F t).map (fun e => e.2)
  ranks : ∀ t < D.P, gr t = (F t).map (fun e => (e.1 : ℤ))
  nodup : ∀ t < D.P, (F t).Nodup
  mem : ∀ t < D.P, ∀ s q, (s, q) ∈ F t ↔ s < D.P ∧ s ≠ t ∧ ∃ p, (D.points s)[q]? = some p ∧ D.hit p (D.box t) = true
  dbscan : ∀ r < D.P, E.dbscan r (D.points r ++ gp r) = some (l r) ∧ (l r).length = (D.points r ++ gp r).length ∧
    IsClustering star (D.points r ++ gp r).length (nearOf D.near (D.points r ++ gp r)) D.minPts (labelAt (l r)) ∧
    Canonical (D.points r ++ gp r).length (nearOf D.near (D.points r ++ gp r)) D.minPts (labelAt (l r))
  own : ∀ g < D.all.length, own g < D.P ∧ idx g < (D.points (own g)).length ∧ g = D.rankOffset (own g) + idx g

/-- The number of points process `r` works on. -/
def sizeOf (D : In X V) (gp : ℕ → List X) (r : ℕ) : ℕ := if r < D.P then (D.points r ++ gp r).length else 0

/-- The parts that do not mention the local clustering. -/
lemma seen_spec {D : In X V} {gp : ℕ → List X} {gi : ℕ → List ℕ} {gr : ℕ → List ℤ} {F : ℕ → List (ℕ × ℕ)}
    (points : ∀ t < D.P, (gp t).map some = (F t).map (fun e => (D.points e.1)[e.2]?))
    (ids : ∀ t < D.P, gi t = (F t).map (fun e => e.2)) (ranks : ∀ t < D.P, gr t = (F t).map (fun e => (e.1 : ℤ)))
    (mem : ∀ t < D.P, ∀ s q, (s, q) ∈ F t ↔ s < D.P ∧ s ≠ t ∧ ∃ p, (D.points s)[q]? = some p ∧ D.hit p (D.box t) = true)
    {r : ℕ} (hr : r < D.P) :
    (gp r).length = (F r).length ∧
    (∀ k e, (F r)[k]? = some e → D.seen r (gi r) (gr r) ((D.points r).length + k) = D.rankOffset e.1 + e.2 ∧
      e.1 < D.P ∧ e.1 ≠ r ∧ e.2 < (D.points e.1).length) ∧
    ∀ i, D.all[D.seen r (gi r) (gr r) i]? = (D.points r ++ gp r)[i]? := by
  have hlen : (gp r).length = (F r).length := by
    have := congrArg List.length (points r hr)
    simpa using this
  have hghost : ∀ k e, (F r)[k]? = some e → D.seen r (gi r) (gr r) ((D.points r).length + k) = D.rankOffset e.1 + e.2 ∧
      e.1 < D.P ∧ e.1 ≠ r ∧ e.2 < (D.points e.1).length := by
    intro k e he
    have hm : (e.1, e.2) ∈ F r := List.mem_of_getElem? he
    obtain ⟨h1, h2, p, h3, -⟩ := (mem r hr e.1 e.2).mp hm
    refine ⟨?_, h1, h2, (List.getElem?_eq_some_iff.mp h3).1⟩
    unfold In.seen
    rw [if_neg (by omega), ids r hr, ranks r hr, Nat.add_sub_cancel_left, List.getElem?_map, List.getElem?_map, he]
    simp
  refine ⟨hlen, hghost, fun i => ?_⟩
  by_cases hi : i < (D.points r).length
  · rw [List.getElem?_append_left hi]
    unfold In.seen
    rw [if_pos hi, D.all_get hr hi]
  · obtain ⟨k, rfl⟩ : ∃ k, i = (D.points r).length + k := ⟨i - (D.points r).length, by omega⟩
    rw [List.getElem?_append_right (by omega), Nat.add_sub_cancel_left]
    cases he : (F r)[k]? with
    | none =>
      have hk : (F r).length ≤ k := List.getElem?_eq_none_iff.mp he
      rw [List.getElem?_eq_none (show (gp r).length ≤ k by omega)]
      unfold In.seen
      rw [if_neg hi, Nat.add_sub_cancel_left, ranks r hr, List.getElem?_map, he]
      simp
    | some e =>
      obtain ⟨h1, h2, -, h4⟩ := hghost k e he
      rw [h1, D.all_get h2 h4]
      have := congrArg (fun l => l[k]?) (points r hr)
      simp only [List.getElem?_map, he, Option.map_some] at this
      cases hp : (gp r)[k]? with
      | none => rw [hp] at this; simp at this
      | some p =>
        rw [hp] at this
        simp only [Option.map_some, Option.some.injEq] at this
        exact this.symm

omit [SemilatticeSup V] [OrderBot V] in
lemma seen_own {D : In X V} {gi : List ℕ} {gr : List ℤ} {r i : ℕ} (hi : i < (D.points r).length) : D.seen r gi gr i = D.rankOffset r + i := by
  unfold In.seen
  rw [if_pos hi]

lemma seen_inj {D : In X V} {gp : ℕ → List X} {gi : ℕ → List ℕ} {gr : ℕ → List ℤ} {F : ℕ → List (ℕ × ℕ)}
    (points : ∀ t < D.P, (gp t).map some = (F t).map (fun e => (D.points e.1)[e.2]?))
    (ids : ∀ t < D.P, gi t = (F t).map (fun e => e.2)) (ranks : ∀ t < D.P, gr t = (F t).map (fun e => (e.1 : ℤ)))
    (nodup : ∀ t < D.P, (F t).Nodup)
    (mem : ∀ t < D.P, ∀ s q, (s, q) ∈ F t ↔ s < D.P ∧ s ≠ t ∧ ∃ p, (D.points s)[q]? = some p ∧ D.hit p (D.box t) = true)
    {r : ℕ} (hr : r < D.P) {i j : ℕ} (hi : i < (D.points r ++ gp r).length) (hj : j < (D.points r ++ gp r).length)
    (h : D.seen r (gi r) (gr r) i = D.seen r (gi r) (gr r) j) : i = j := by
  obtain ⟨hlen, hghost, -⟩ := seen_spec points ids ranks mem hr
  rw [List.length_append] at hi hj
  have hcase : ∀ k, k < (D.points r).length + (gp r).length → ∃ s q, D.seen r (gi r) (gr r) k = D.rankOffset s + q ∧ q < (D.points s).length ∧
      ((s = r ∧ q = k) ∨ (s ≠ r ∧ (D.points r).length ≤ k ∧ (F r)[k - (D.points r).length]? = some (s, q))) := by
    intro k hk
    by_cases h : k < (D.points r).length
    · exact ⟨r, k, seen_own h, h, Or.inl ⟨rfl, rfl⟩⟩
    · obtain ⟨k', rfl⟩ : ∃ k', k = (D.points r).length + k' := ⟨k - (D.points r).length, by omega⟩
      have hk' : k' < (F r).length := by omega
      obtain ⟨h1, -, h3, h4⟩ := hghost k' _ (List.getElem?_eq_getElem hk')
      exact ⟨_, _, h1, h4, Or.inr ⟨h3, by omega, by rw [Nat.add_sub_cancel_left, List.getElem?_eq_getElem hk']⟩⟩
  obtain ⟨s, q, h1, h2, h3⟩ := hcase i hi
  obtain ⟨s', q', h1', h2', h3'⟩ := hcase j hj
  rw [h1, h1'] at h
  obtain ⟨rfl, rfl⟩ := D.rank_inj h2 h2' h
  rcases h3 with ⟨h3, h4⟩ | ⟨h3, h4, h5⟩
  · rcases h3' with ⟨h3', h4'⟩ | ⟨h3', -⟩
    · omega
    · exact absurd h3 h3'
  · rcases h3' with ⟨h3', -⟩ | ⟨h3', h4', h5'⟩
    · exact absurd h3' h3
    · obtain ⟨k1, k2⟩ := List.getElem?_eq_some_iff.mp h5
      obtain ⟨k3, k4⟩ := List.getElem?_eq_some_iff.mp h5'
      have := (List.Nodup.getElem_inj_iff (nodup r hr)).mp (k2.trans k4.symm)
      omega

lemma views_spec {D : In X V} (hD : D.Geometry) (h2 : 2 ≤ D.minPts) {E : XEnv X w} {gp : ℕ → List X} {gi : ℕ → List ℕ} {gr : ℕ → List ℤ} {F : ℕ → List (ℕ × ℕ)}
    {l : ℕ → List ℤ} {star : Bool} {own idx : ℕ → ℕ} (H : Found' D E gp gi gr F l star own idx) :
    Views D.all.length (nearOf D.near D.all) D.minPts star D.P own (sizeOf D gp) (fun r => D.seen r (gi r) (gr r)) (fun r => labelAt (l r)) := by
  have hs : ∀ r < D.P, _ := fun r hr => seen_spec H.points H.ids H.ranks H.mem hr
  have hsize : ∀ {r}, r < D.P → sizeOf D gp r = (D.points r ++ gp r).length := fun hr => if_pos hr
  have hlt : ∀ r i, i < sizeOf D gp r → r < D.P := by
    intro r i hi
    by_contra h
    unfold sizeOf at hi
    rw [if_neg h] at hi
    omega
  have hnear : ∀ r < D.P, (fun i j => nearOf D.near D.all (D.seen r (gi r) (gr r) i) (D.seen r (gi r) (gr r) j)) = nearOf D.near (D.points r ++ gp r) := by
    intro r hr
    funext i j
    unfold nearOf
    rw [(hs r hr).2.2 i, (hs r hr).2.2 j]
  have hpt : ∀ g < D.all.length, ∃ p, D.all[g]? = some p ∧ (D.points (own g))[idx g]? = some p := by
    intro g hg
    obtain ⟨h1, h2, h3⟩ := H.own g hg
    refine ⟨_, List.getElem?_eq_getElem hg, ?_⟩
    rw [← D.all_get h1 h2, ← h3, List.getElem?_eq_getElem hg]
  have hself : ∀ g < D.all.length, ∃ i < sizeOf D gp (own g), D.seen (own g) (gi (own g)) (gr (own g)) i = g := by
    intro g hg
    obtain ⟨h1, h2, h3⟩ := H.own g hg
    refine ⟨idx g, ?_, (seen_own h2).trans h3.symm⟩
    rw [hsize h1, List.length_append]
    omega
  have hsee : ∀ g < D.all.length, ∀ h < D.all.length, (∀ p, D.all[h]? = some p → D.hit p (D.box (own g)) = true) →
      ∃ j < sizeOf D gp (own g), D.seen (own g) (gi (own g)) (gr (own g)) j = h := by
    intro g hg h hh hhit
    obtain ⟨p, hp1, hp2⟩ := hpt h hh
    obtain ⟨k1, k2, k3⟩ := H.own h hh
    obtain ⟨k4, -, -⟩ := H.own g hg
    by_cases e : own h = own g
    · rw [← e]; exact hself h hh
    · have hm := (H.mem (own g) k4 (own h) (idx h)).mpr ⟨k1, e, p, hp2, hhit p hp1⟩
      obtain ⟨k, hk, he⟩ := List.mem_iff_getElem.mp hm
      obtain ⟨q1, q2, -⟩ := hs (own g) k4
      refine ⟨(D.points (own g)).length + k, by rw [hsize k4, List.length_append]; omega, ?_⟩
      rw [(q2 k (own h, idx h) (by rw [List.getElem?_eq_getElem hk, he])).1]
      exact k3.symm
  have hbox : ∀ g < D.all.length, ∀ p, D.all[g]? = some p → D.boxOf p ≤ D.box (own g) := by
    intro g hg p hp
    obtain ⟨p', hp1, hp2⟩ := hpt g hg
    rw [hp] at hp1
    obtain rfl := Option.some.inj hp1
    exact D.box_le (List.mem_of_getElem? hp2)
  refine ⟨?_, ?_, h2, ?_, ?_, hself, ?_, ?_, fun g hg => (H.own g hg).1, fun r hr => ?_, fun r hr => ?_⟩
  · intro i j
    unfold nearOf
    cases D.all[i]? <;> cases D.all[j]? <;> simp [hD.symm]
  · intro i
    unfold nearOf
    cases D.all[i]? <;> simp [hD.refl]
  · intro r i hi
    have hr := hlt r i hi
    rw [hsize hr] at hi
    have := (hs r hr).2.2 i
    rw [List.getElem?_eq_getElem hi] at this
    exact (List.getElem?_eq_some_iff.mp this).1
  · intro r i hi j hj h
    have hr := hlt r i hi
    rw [hsize hr] at hi hj
    exact seen_inj H.points H.ids H.ranks H.nodup H.mem hr hi hj h
  · intro g hg h hh hn
    refine hsee g hg h hh (fun p hp => ?_)
    obtain ⟨q, hq, -⟩ := hpt g hg
    rw [nearOf_some hq hp] at hn
    exact hD.one p q _ (by rw [hD.symm]; exact hn) (hbox g hg q hq)
  · intro hne g hg h hh k hk hn1 hn2
    refine hsee g hg k hk (fun x hx => ?_)
    obtain ⟨q, hq, -⟩ := hpt g hg
    obtain ⟨p, hp, -⟩ := hpt h hh
    rw [nearOf_some hq hp] at hn1
    rw [nearOf_some hp hx] at hn2
    exact hD.two hne x (List.mem_of_getElem? hx) p (List.mem_of_getElem? hp) q (List.mem_of_getElem? hq) _ (by rw [hD.symm]; exact hn2) (by rw [hD.symm]; exact hn1) (hbox g hg q hq)
  · rw [hnear r hr, hsize hr]; exact (H.dbscan r hr).2.2.1
  · rw [hnear r hr, hsize hr]; exact (H.dbscan r hr).2.2.2

end ArborX.DistDbscan
