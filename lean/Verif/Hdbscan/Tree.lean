import Verif.Hdbscan.Levels
import Verif.Dendrogram.Theorems
import Mathlib.Algebra.BigOperators.Group.Finset.Basic
import Mathlib.Algebra.Order.BigOperators.Group.Finset

/-!
# The dendrogram laid out by chains (lemmas)

Independent of the code: if the edges of a run of Borůvka's algorithm are arranged by chains, and
in every chain by weight with the smallest edge first, then the parents assigned from the
arrangement form the single-linkage dendrogram.
-/

namespace ArborX.Hdbscan

open Dendrogram (Above)
open Perm (IsPerm)

lemma above_trans {par : ℕ → Option ℤ} {a b x : ℕ} (h : Above par a b) (h' : Above par b x) : Above par a x := by
  induction h' with
  | refl => exact h
  | step hp _ ih => exact .step hp ih

lemma above_total {par : ℕ → Option ℤ} {a b x : ℕ} (h : Above par a x) (h' : Above par b x) :
    Above par a b ∨ Above par b a := by
  induction h with
  | refl => exact .inr h'
  | step hp t ih =>
    cases h' with
    | refl => exact .inl (.step hp t)
    | step hp' t' =>
      rw [hp] at hp'
      have := Option.some.inj hp'
      have := Int.ofNat.inj this
      subst this
      exact ih t'

/-- The arrangement of the edges and the parents assigned from it. `τ x` is the edge at place `x`,
`rev` the inverse, `cid` the number of the chain of an edge, `vert` the index of a vertex in the
output. -/
structure Laid {n m : ℕ} {κ : Type} [LinearOrder κ] {src tgt : ℕ → ℕ} {key : ℕ → κ} {L : ℕ} {off : ℕ → ℕ}
    {lab : ℕ → ℕ → ℕ} {α : ℕ → ℕ → ℕ} (H : Levels n m src tgt key L off lab α) {W : Type} [LinearOrder W]
    (wt : ℕ → W) (cid : ℕ → ℤ) (τ rev vert : ℕ → ℕ) (par : ℕ → Option ℤ) : Prop where
  size : n = m + 1
  pos : 0 < m
  weight : ∀ e < m, ∀ f < m, key e ≤ key f → wt e ≤ wt f
  perm : ∀ x < m, τ x < m ∧ rev (τ x) = x
  inv : ∀ e < m, rev e < m ∧ τ (rev e) = e
  vertices : ((List.range n).map vert).Perm (List.range n)
  chain : ∀ e f k l, Top src key L off lab α e k → Top src key L off lab α f l →
    (cid e = cid f ↔ k = l ∧ lab k (src e) = lab k (src f))
  sorted : ∀ x y, x ≤ y → y < m → cid (τ x) ≤ cid (τ y)
  sorted_weight : ∀ x y, x ≤ y → y < m → cid (τ x) = cid (τ y) → wt (τ x) ≤ wt (τ y)
  first : ∀ x < m, (x = 0 ∨ cid (τ (x - 1)) ≠ cid (τ x)) → ∀ f < m, cid f = cid (τ x) → f ≠ τ x → key (τ x) < key f
  root_last : ∀ e, Top src key L off lab α e L → ∀ f < m, cid f ≤ cid e
  par_next : ∀ x, x + 1 < m → cid (τ x) = cid (τ (x + 1)) → par x = some ((x + 1 : ℕ) : ℤ)
  par_alpha : ∀ x, x + 1 < m → cid (τ x) ≠ cid (τ (x + 1)) → ∀ k < L, Top src key L off lab α (τ x) k →
    par x = some ((rev (α k (lab k (src (τ x)))) : ℕ) : ℤ)
  par_last : par (m - 1) = some (-1)
  par_vertex : ∀ v < n, par (m + vert v) = some ((rev (α 0 v) : ℕ) : ℤ)

namespace Levels

variable {n m : ℕ} {κ : Type} [LinearOrder κ] {src tgt : ℕ → ℕ} {key : ℕ → κ} {L : ℕ} {off : ℕ → ℕ}
  {lab : ℕ → ℕ → ℕ} {α : ℕ → ℕ → ℕ} (H : Levels n m src tgt key L off lab α)
include H

/-- Every edge has a chain. -/
lemma top_exists {e : ℕ} (he : e < m) : ∃ k, Top src key L off lab α e k := by
  obtain ⟨i, hi, h1, h2⟩ := H.level he
  have key' : ∀ d k, k + d = L → i < k → (∀ j < k, e < off j → key (α j (lab j (src e))) < key e) →
      ∃ k, Top src key L off lab α e k := by
    intro d
    induction d with
    | zero =>
      intro k hk hik hf
      have : k = L := by omega
      subst this
      exact ⟨k, le_rfl, by rw [H.off_last]; exact he, fun h => absurd h (lt_irrefl _), hf⟩
    | succ d ih =>
      intro k hk hik hf
      have hlt : e < off k := lt_of_lt_of_le h2 (H.off_mono hik (by omega))
      rcases lt_or_gt_of_ne (H.key_ne (by omega : k < L) hlt (H.range e he).1) with h | h
      · exact ⟨k, by omega, hlt, fun _ => h, hf⟩
      · refine ih (k + 1) (by omega) (by omega) (fun j hj hje => ?_)
        rcases Nat.lt_succ_iff_lt_or_eq.mp hj with hj | rfl
        · exact hf j hj hje
        · exact h
  refine key' (L - (i + 1)) (i + 1) (by omega) (by omega) (fun j hj hje => ?_)
  have := H.off_mono (by omega : j ≤ i) hi.le
  omega

lemma pos_of (hm : 0 < m) : 0 < L := by
  by_contra h
  have h0 : L = 0 := by omega
  have := H.off_last
  rw [h0, H.off_zero] at this
  omega

end Levels

namespace Laid

variable {n m : ℕ} {κ : Type} [LinearOrder κ] {src tgt : ℕ → ℕ} {key : ℕ → κ} {L : ℕ} {off : ℕ → ℕ}
  {lab : ℕ → ℕ → ℕ} {α : ℕ → ℕ → ℕ} {H : Levels n m src tgt key L off lab α} {W : Type} [LinearOrder W]
  {wt : ℕ → W} {cid : ℕ → ℤ} {τ rev vert : ℕ → ℕ} {par : ℕ → Option ℤ} (D : Laid H wt cid τ rev vert par)
include D

lemma vert_lt {v : ℕ} (hv : v < n) : vert v < n := IsPerm.lt D.vertices hv

lemma vert_inj {u v : ℕ} (hu : u < n) (hv : v < n) (h : vert u = vert v) : u = v := IsPerm.inj D.vertices hu hv h

/-- Later places of a chain lie above. -/
lemma above_chain {x y : ℕ} (hxy : x ≤ y) (hy : y < m) (h : cid (τ x) = cid (τ y)) : Above par y x := by
  obtain ⟨d, rfl⟩ := Nat.exists_eq_add_of_le hxy
  clear hxy
  induction d generalizing x with
  | zero => exact .refl
  | succ d ih =>
    have h1 := D.sorted x (x + 1) (by omega) (by omega)
    have h2 := D.sorted (x + 1) (x + (d + 1)) (by omega) (by omega)
    have he : cid (τ x) = cid (τ (x + 1)) := by omega
    have := ih (x := x + 1) (by omega) (by rw [← he, h]; congr 2; omega)
    rw [show x + 1 + d = x + (d + 1) by omega] at this
    exact .step (D.par_next x (by omega) he) this

omit [LinearOrder κ] [LinearOrder W] D in
/-- The place where the chain of `x` ends. -/
lemma chain_end {x : ℕ} (hx : x < m) : ∃ y, x ≤ y ∧ y < m ∧ cid (τ x) = cid (τ y) ∧
    (y + 1 < m → cid (τ y) ≠ cid (τ (y + 1))) := by
  have : ∀ d y, y + d = m → x ≤ y → y < m → cid (τ x) = cid (τ y) → ∃ y, x ≤ y ∧ y < m ∧ cid (τ x) = cid (τ y) ∧
    (y + 1 < m → cid (τ y) ≠ cid (τ (y + 1))) := by
    intro d
    induction d with
    | zero => intro y h1 _ h2; omega
    | succ d ih =>
      intro y h1 h2 h3 h4
      by_cases h : y + 1 < m ∧ cid (τ y) = cid (τ (y + 1))
      · exact ih (y + 1) (by omega) (by omega) h.1 (h4.trans h.2)
      · exact ⟨y, h2, h3, h4, fun a b => h ⟨a, b⟩⟩
  exact this (m - x) x (by omega) le_rfl hx rfl

/-- There is an edge in the root chain, the last place is one. -/
lemma last_root : Top src key L off lab α (τ (m - 1)) L := by
  have hm := D.pos
  have hL := H.pos_of hm
  have hlt := H.off_le (L - 1) (by omega)
  rw [show L - 1 + 1 = L by omega] at hlt
  have hofm := H.off_last
  have htop : Top src key L off lab α (off (L - 1)) L := by
    refine ⟨le_rfl, hlt, fun h => absurd h (lt_irrefl _), fun i hi h => ?_⟩
    have := H.off_mono (by omega : i ≤ L - 1) (by omega)
    omega
  have h1 := D.root_last _ htop (τ (m - 1)) (D.perm (m - 1) (by omega)).1
  have h2 := D.inv (off (L - 1)) (by omega)
  have h3 := D.sorted (rev (off (L - 1))) (m - 1) (by omega) (by omega)
  rw [h2.2] at h3
  obtain ⟨k, hk⟩ := H.top_exists (D.perm (m - 1) (by omega)).1
  have := (D.chain _ _ k L hk htop).mp (by omega)
  exact this.1 ▸ hk

/-- The edge chosen by the component of a chain lies above the edges of the chain. -/
lemma above_alpha {e k : ℕ} (hk : k < L) (he : Top src key L off lab α e k) :
    Above par (rev (α k (lab k (src e)))) (rev e) := by
  have hem : e < m := lt_of_lt_of_le he.lt (H.off_le_m he.le)
  obtain ⟨h1, h2⟩ := D.inv e hem
  obtain ⟨y, a1, a2, a3, a4⟩ := chain_end (cid := cid) (τ := τ) h1
  refine above_trans ?_ (D.above_chain a1 a2 a3)
  rw [h2] at a3
  obtain ⟨l, hl⟩ := H.top_exists (D.perm y a2).1
  obtain ⟨rfl, hlab⟩ := (D.chain e (τ y) k l he hl).mp a3
  have hy : y + 1 < m := by
    by_contra hy
    have : y = m - 1 := by omega
    subst this
    have := Levels.top_unique hl D.last_root
    omega
  have := D.par_alpha y hy (a4 hy) k hk hl
  rw [← hlab] at this
  exact .step this .refl

/-- What the parent of a place is. -/
lemma parent_cases {x : ℕ} (hx : x < m) :
    (x = m - 1 ∧ par x = some (-1)) ∨
    (x + 1 < m ∧ cid (τ x) = cid (τ (x + 1)) ∧ par x = some ((x + 1 : ℕ) : ℤ)) ∨
    ∃ k < L, Top src key L off lab α (τ x) k ∧ x + 1 < m ∧ cid (τ x) ≠ cid (τ (x + 1)) ∧
      par x = some ((rev (α k (lab k (src (τ x)))) : ℕ) : ℤ) := by
  by_cases h : x = m - 1
  · left; refine ⟨h, ?_⟩; rw [h]; exact D.par_last
  right
  have hx1 : x + 1 < m := by omega
  by_cases hc : cid (τ x) = cid (τ (x + 1))
  · exact .inl ⟨hx1, hc, D.par_next x hx1 hc⟩
  · right
    obtain ⟨k, hk⟩ := H.top_exists (D.perm x hx).1
    have hkL : k < L := by
      refine lt_of_le_of_ne hk.le (fun e => ?_)
      subst e
      have h1 := D.root_last _ hk _ (D.perm (x + 1) hx1).1
      have h2 := D.sorted x (x + 1) (by omega) hx1
      omega
    exact ⟨k, hkL, hk, hx1, hc, D.par_alpha x hx1 hc k hkL hk⟩

/-- Heights do not decrease towards the root. -/
lemma height_le {x y : ℕ} (hx : x < m) (hp : par x = some (y : ℤ)) : y < m ∧ wt (τ x) ≤ wt (τ y) := by
  rcases D.parent_cases hx with ⟨-, h⟩ | ⟨h1, h2, h⟩ | ⟨k, hk, ht, h1, h2, h⟩
  · rw [hp] at h
    have := Option.some.inj h
    omega
  · rw [hp] at h
    have := Int.ofNat.inj (Option.some.inj h)
    subst this
    exact ⟨h1, D.sorted_weight x (x + 1) (by omega) h1 h2⟩
  · rw [hp] at h
    have := Int.ofNat.inj (Option.some.inj h)
    subst this
    have hτ := (D.perm x hx).1
    have ha := H.alpha_lt hk (H.range _ hτ).1
    obtain ⟨b1, b2⟩ := D.inv _ ha
    refine ⟨b1, ?_⟩
    rw [b2]
    exact D.weight _ hτ _ ha (ht.above hk).le

/-- The child and the parent are joined by edges of weight at most that of the parent. -/
lemma parent_joined {x y : ℕ} (hx : x < m) (hp : par x = some (y : ℤ)) :
    Lk m src tgt (fun f => wt f ≤ wt (τ y)) (src (τ x)) (src (τ y)) := by
  have hτ := (D.perm x hx).1
  rcases D.parent_cases hx with ⟨-, h⟩ | ⟨h1, h2, h⟩ | ⟨k, hk, ht, h1, h2, h⟩
  · rw [hp] at h
    have := Option.some.inj h
    omega
  · rw [hp] at h
    have := Int.ofNat.inj (Option.some.inj h)
    subst this
    have hτ1 := (D.perm _ h1).1
    obtain ⟨k, hk⟩ := H.top_exists hτ
    obtain ⟨l, hl⟩ := H.top_exists hτ1
    obtain ⟨rfl, hlab⟩ := (D.chain _ _ k l hk hl).mp h2
    have hw := D.sorted_weight x (x + 1) (by omega) h1 h2
    refine (H.chain_joined (t := max (key (τ x)) (key (τ (x + 1)))) hk hl hlab (le_max_left _ _) (le_max_right _ _)).mono ?_
    rintro e he ⟨-, hle⟩
    rcases le_max_iff.mp hle with h | h
    · exact (D.weight e he _ hτ h).trans hw
    · exact D.weight e he _ hτ1 h
  · rw [hp] at h
    have := Int.ofNat.inj (Option.some.inj h)
    subst this
    have ha := H.alpha_lt hk (H.range _ hτ).1
    rw [(D.inv _ ha).2]
    exact (H.alpha_joined hk ht).mono (fun e he hle => D.weight e he _ ha hle)

/-- Everything below an edge is joined to it by edges of at most its weight. -/
lemma above_joined {a x : ℕ} (h : Above par a x) (hx : x < m) : a < m ∧
    Lk m src tgt (fun f => wt f ≤ wt (τ a)) (src (τ x)) (src (τ a)) ∧ wt (τ x) ≤ wt (τ a) := by
  induction h with
  | refl => exact ⟨hx, .refl _ _, le_rfl⟩
  | step hp _ ih =>
    obtain ⟨h1, h2⟩ := D.height_le hx hp
    obtain ⟨h3, h4, h5⟩ := ih h1
    exact ⟨h3, ((D.parent_joined hx hp).mono (fun e _ he => he.trans h5)).trans h4, h2.trans h5⟩

lemma alpha_zero_end {v : ℕ} (hv : v < n) : α 0 v < m ∧ (src (α 0 v) = v ∨ tgt (α 0 v) = v) := by
  have hL := H.pos_of D.pos
  have h0 := H.lab_zero v hv
  have hlt := H.alpha_lt hL hv
  have hc := H.alpha_cross 0 hL v hv
  rw [h0] at hlt hc
  obtain ⟨a, b⟩ := H.range _ hlt
  rw [H.lab_zero _ a, H.lab_zero _ b] at hc
  exact ⟨hlt, hc.imp And.left And.left⟩

lemma above_vertex {a v : ℕ} (hv : v < n) (ha : a < m) (h : Above par a (m + vert v)) :
    Lk m src tgt (fun f => wt f ≤ wt (τ a)) v (src (τ a)) := by
  cases h with
  | refl => omega
  | step hp t =>
    rw [D.par_vertex v hv] at hp
    have := Int.ofNat.inj (Option.some.inj hp)
    subst this
    obtain ⟨h1, h2⟩ := D.alpha_zero_end hv
    obtain ⟨h3, h4⟩ := D.inv _ h1
    obtain ⟨-, h5, h6⟩ := D.above_joined t h3
    rw [h4] at h5 h6
    refine Lk.trans ?_ h5
    rcases h2 with e | e
    · rw [e]; exact .refl _ _
    · have := (Lk.edge (src := src) (tgt := tgt) (p := fun f => wt f ≤ wt (τ a)) h1 h6).symm
      rwa [e] at this

/-! ## Completeness -/

omit D in
/-- Two nodes have an edge of height at most `h` above them. -/
def J (m : ℕ) (wt : ℕ → W) (τ : ℕ → ℕ) (par : ℕ → Option ℤ) (h : W) (x y : ℕ) : Prop :=
  ∃ a < m, wt (τ a) ≤ h ∧ Above par a x ∧ Above par a y

omit D in
lemma J.symm {h : W} {x y : ℕ} : J m wt τ par h x y → J m wt τ par h y x :=
  fun ⟨a, h1, h2, h3, h4⟩ => ⟨a, h1, h2, h4, h3⟩

omit D in
lemma J.trans {h : W} {x y z : ℕ} (h1 : J m wt τ par h x y) (h2 : J m wt τ par h y z) : J m wt τ par h x z := by
  obtain ⟨a, a1, a2, a3, a4⟩ := h1
  obtain ⟨b, b1, b2, b3, b4⟩ := h2
  rcases above_total a4 b3 with c | c
  · exact ⟨a, a1, a2, a3, above_trans c b4⟩
  · exact ⟨b, b1, b2, above_trans c a3, b4⟩

omit D in
lemma J.mono {h h' : W} (hh : h ≤ h') {x y : ℕ} : J m wt τ par h x y → J m wt τ par h' x y :=
  fun ⟨a, h1, h2, h3⟩ => ⟨a, h1, h2.trans hh, h3⟩

lemma j_self {e : ℕ} (he : e < m) {h : W} (hw : wt e ≤ h) : J m wt τ par h (rev e) (rev e) := by
  obtain ⟨h1, h2⟩ := D.inv e he
  exact ⟨rev e, h1, by rw [h2]; exact hw, .refl, .refl⟩

/-- Two edges of one chain. -/
lemma j_chain {e f k : ℕ} (he : Top src key L off lab α e k) (hf : Top src key L off lab α f k)
    (hlab : lab k (src e) = lab k (src f)) {h : W} (h1 : wt e ≤ h) (h2 : wt f ≤ h) :
    J m wt τ par h (rev e) (rev f) := by
  have hem : e < m := lt_of_lt_of_le he.lt (H.off_le_m he.le)
  have hfm : f < m := lt_of_lt_of_le hf.lt (H.off_le_m hf.le)
  have hc := (D.chain e f k k he hf).mpr ⟨rfl, hlab⟩
  obtain ⟨e1, e2⟩ := D.inv e hem
  obtain ⟨f1, f2⟩ := D.inv f hfm
  rcases le_total (rev e) (rev f) with hle | hle
  · exact ⟨rev f, f1, by rw [f2]; exact h2, D.above_chain hle f1 (by rw [e2, f2, hc]), .refl⟩
  · exact ⟨rev e, e1, by rw [e2]; exact h1, .refl, D.above_chain hle e1 (by rw [e2, f2, hc])⟩

/-- An edge of a chain and the edge chosen by the component of the chain. -/
lemma j_alpha {e k : ℕ} (hk : k < L) (he : Top src key L off lab α e k) {h : W}
    (hw : wt (α k (lab k (src e))) ≤ h) : J m wt τ par h (rev e) (rev (α k (lab k (src e)))) := by
  have hem : e < m := lt_of_lt_of_le he.lt (H.off_le_m he.le)
  obtain ⟨h1, h2⟩ := D.inv _ (H.alpha_lt hk (H.range e hem).1)
  exact ⟨_, h1, by rw [h2]; exact hw, D.above_alpha hk he, .refl⟩

/-- An edge that is larger than all edges chosen so far by its components has an edge of at most its
weight above it and the last one chosen. -/
lemma j_climb : ∀ d k, k + d + 1 = L → ∀ a < m, a < off k →
    (∀ i ≤ k, a < off i → key (α i (lab i (src a))) < key a) →
    J m wt τ par (wt a) (rev a) (rev (α k (lab k (src a)))) := by
  intro d
  induction d with
  | zero =>
    intro k hk a ham hak hf
    have hkL : k < L := by omega
    have hs := (H.range a ham).1
    obtain ⟨b1, b2⟩ := H.alpha_mem k hkL _ hs
    set b := α k (lab k (src a)) with hb
    have hbm : b < m := H.alpha_lt hkL hs
    have hab : key b < key a := hf k le_rfl hak
    have ta : Top src key L off lab α a L :=
      ⟨le_rfl, by rw [H.off_last]; exact ham, fun h => absurd h (lt_irrefl _), fun i hi => hf i (by omega)⟩
    have tb : Top src key L off lab α b L := by
      refine ⟨le_rfl, by rw [H.off_last]; exact hbm, fun h => absurd h (lt_irrefl _), fun i hi h => ?_⟩
      have := H.off_mono (by omega : i ≤ k) hkL.le
      omega
    exact D.j_chain ta tb (H.lab_last _ hs _ (H.range b hbm).1) le_rfl (D.weight _ hbm _ ham hab.le)
  | succ d ih =>
    intro k hk a ham hak hf
    have hkL : k < L := by omega
    have hk1 : k + 1 < L := by omega
    have hs := (H.range a ham).1
    obtain ⟨b1, b2⟩ := H.alpha_mem k hkL _ hs
    have hcr := H.alpha_cross k hkL _ hs
    set b := α k (lab k (src a)) with hb
    have hbm : b < m := H.alpha_lt hkL hs
    have hab : key b < key a := hf k le_rfl hak
    have hwab := D.weight _ hbm _ ham hab.le
    obtain ⟨bs, bt⟩ := H.range b hbm
    -- both lie in the component before iteration k + 1
    have hlab : lab (k + 1) (src b) = lab (k + 1) (src a) := by
      rcases hcr with ⟨h, -⟩ | ⟨h, -⟩
      · exact H.coarse k hkL _ bs _ hs h
      · rw [H.inside (k + 1) hk1.le b b2]
        exact H.coarse k hkL _ bt _ hs h
    have hak1 : a < off (k + 1) := lt_of_lt_of_le hak (H.off_le k hkL).le
    have jb := H.top_or hkL b1 b2
    rcases lt_or_gt_of_ne (H.key_ne hk1 hak1 hs) with hac | hac
    · have ta : Top src key L off lab α a (k + 1) := ⟨hk1.le, hak1, fun _ => hac, fun i hi => hf i (by omega)⟩
      have tb : Top src key L off lab α b (k + 1) := by
        rcases jb with h | ⟨-, h⟩
        · exact h
        · rw [hlab] at h
          exact absurd (h.trans hab) (not_lt.mpr hac.le)
      exact D.j_chain ta tb hlab.symm le_rfl hwab
    · have ja := ih (k + 1) (by omega) a ham hak1 (fun i hi hai => by
        rcases Nat.lt_succ_iff_lt_or_eq.mp (Nat.lt_succ_of_le hi) with h | rfl
        · exact hf i (by omega) hai
        · exact hac)
      refine ja.trans (J.symm ?_)
      rcases jb with h | ⟨-, h⟩
      · rw [← hlab]
        refine D.j_alpha hk1 h ?_
        rw [hlab]
        exact D.weight _ (H.alpha_lt hk1 hs) _ ham hac.le
      · have := ih (k + 1) (by omega) b hbm b2 (fun i hi hbi => by
          rcases Nat.lt_succ_iff_lt_or_eq.mp (Nat.lt_succ_of_le hi) with hh | rfl
          · have := H.off_mono (by omega : i ≤ k) hkL.le
            omega
          · exact h)
        rw [hlab] at this
        exact this.mono hwab

/-- From an edge of iteration `k` to the edge chosen by its component in the next iteration. -/
lemma j_next {k b : ℕ} (hk1 : k + 1 < L) (b1 : off k ≤ b) (b2 : b < off (k + 1)) {h : W} (hw : wt b ≤ h)
    (hw' : wt (α (k + 1) (lab (k + 1) (src b))) ≤ h) :
    J m wt τ par h (rev b) (rev (α (k + 1) (lab (k + 1) (src b)))) := by
  have hbm : b < m := lt_of_lt_of_le b2 (H.off_le_m hk1.le)
  rcases H.top_or (by omega) b1 b2 with ht | ⟨-, ht⟩
  · exact D.j_alpha hk1 ht hw'
  · refine (D.j_climb (L - (k + 1) - 1) (k + 1) (by omega) b hbm b2 (fun i hi hbi => ?_)).mono hw
    rcases Nat.lt_succ_iff_lt_or_eq.mp (Nat.lt_succ_of_le hi) with hh | rfl
    · have := H.off_mono (by omega : i ≤ k) (by omega)
      omega
    · exact ht

/-- A vertex and the edges chosen by the components it is in, up to an edge that leaves them. -/
lemma j_vertex {v e : ℕ} (hv : v < n) (he : e < m) (hend : src e = v ∨ tgt e = v) : ∀ k < L, off k ≤ e →
    J m wt τ par (wt e) (m + vert v) (rev (α k (lab k v))) := by
  have hle : ∀ k < L, off k ≤ e → key (α k (lab k v)) ≤ key e := by
    intro k hk hke
    refine H.alpha_min k hk v hv e he ?_ ?_
    · intro h
      have := (H.inside_iff hk.le he).mp h
      omega
    · rcases hend with h | h
      · left; rw [h]
      · right; rw [h]
  intro k
  induction k with
  | zero =>
    intro hL h0
    have ha := H.alpha_lt hL hv
    obtain ⟨b1, b2⟩ := D.inv _ ha
    refine ⟨_, b1, ?_, ?_, .refl⟩
    · rw [b2]; exact D.weight _ ha _ he (hle 0 hL h0)
    · have := D.par_vertex v hv
      rw [H.lab_zero v hv]
      exact .step this .refl
  | succ k ih =>
    intro hk1 hke
    have hkL : k < L := by omega
    have hke' := (H.off_le k hkL).le.trans hke
    refine (ih hkL hke').trans ?_
    have hcr := H.alpha_cross k hkL v hv
    obtain ⟨b1, b2⟩ := H.alpha_mem k hkL v hv
    have hbm := H.alpha_lt hkL hv
    have hbe := D.weight _ hbm _ he (hle k hkL hke')
    set b := α k (lab k v) with hb
    obtain ⟨bs, bt⟩ := H.range b hbm
    have hlab : lab (k + 1) (src b) = lab (k + 1) v := by
      rcases hcr with ⟨h, -⟩ | ⟨h, -⟩
      · exact H.coarse k hkL _ bs _ hv h
      · rw [H.inside (k + 1) hk1.le b b2]
        exact H.coarse k hkL _ bt _ hv h
    have := D.j_next hk1 b1 b2 hbe (by
      rw [hlab]
      exact D.weight _ (H.alpha_lt hk1 hv) _ he (hle (k + 1) hk1 hke))
    rw [hlab] at this
    exact this

/-- A vertex and an edge at it. -/
lemma j_edge {v e : ℕ} (hv : v < n) (he : e < m) (hend : src e = v ∨ tgt e = v) :
    J m wt τ par (wt e) (m + vert v) (rev e) := by
  obtain ⟨i, hi, h1, h2⟩ := H.level he
  refine (D.j_vertex hv he hend i hi h1).trans ?_
  have hcr := H.alpha_cross i hi v hv
  obtain ⟨b1, b2⟩ := H.alpha_mem i hi v hv
  have hbm := H.alpha_lt hi hv
  have hbe : key (α i (lab i v)) ≤ key e := by
    refine H.alpha_min i hi v hv e he (H.ends_ne hi h1 h2) ?_
    rcases hend with h | h
    · left; rw [h]
    · right; rw [h]
  set b := α i (lab i v) with hb
  have hw := D.weight _ hbm _ he hbe
  by_cases hbe' : b = e
  · rw [hbe']; exact D.j_self he le_rfl
  have hlt : key b < key e := lt_of_le_of_ne hbe (fun h => hbe' (H.inj _ hbm _ he h))
  obtain ⟨bs, bt⟩ := H.range b hbm
  obtain ⟨es, et⟩ := H.range e he
  have hlv : lab (i + 1) (src e) = lab (i + 1) v := by
    rcases hend with h | h
    · rw [h]
    · rw [H.inside (i + 1) (by omega) e h2, h]
  have hlab : lab (i + 1) (src b) = lab (i + 1) v := by
    rcases hcr with ⟨h, -⟩ | ⟨h, -⟩
    · exact H.coarse i hi _ bs _ hv h
    · rw [H.inside (i + 1) (by omega) b b2]
      exact H.coarse i hi _ bt _ hv h
  rcases H.top_or hi h1 h2 with te | ⟨hi1, hce⟩
  · rcases H.top_or hi b1 b2 with tb | ⟨hi1, hcb⟩
    · exact D.j_chain tb te (hlab.trans hlv.symm) hw le_rfl
    · have := te.above hi1
      rw [hlab] at hcb
      rw [hlv] at this
      exact absurd (hcb.trans hlt) (not_lt.mpr this.le)
  · have hc : wt (α (i + 1) (lab (i + 1) v)) ≤ wt e := by
      rw [hlv] at hce
      exact D.weight _ (H.alpha_lt hi1 hv) _ he hce.le
    have j1 := D.j_next hi1 b1 b2 hw (by rw [hlab]; exact hc)
    have j2 := D.j_next hi1 h1 h2 le_rfl (by rw [hlv]; exact hc)
    rw [hlab] at j1
    rw [hlv] at j2
    exact j1.trans j2.symm

/-- Single linkage. -/
lemma single_linkage {u v : ℕ} (hu : u < n) (hv : v < n) (huv : u ≠ v) (h : W) :
    Lk m src tgt (fun e => wt e ≤ h) u v ↔
      ∃ a < m, wt (τ a) ≤ h ∧ Above par a (m + vert u) ∧ Above par a (m + vert v) := by
  constructor
  · intro c
    have : ∀ x y, Lk m src tgt (fun e => wt e ≤ h) x y → x = y ∨
        (x < n ∧ y < n ∧ J m wt τ par h (m + vert x) (m + vert y)) := by
      intro x y c
      induction c with
      | rel a b hr =>
        obtain ⟨e, he, hw, rfl, rfl⟩ := hr
        obtain ⟨es, et⟩ := H.range e he
        right
        exact ⟨es, et, ((D.j_edge es he (.inl rfl)).mono hw).trans ((D.j_edge et he (.inr rfl)).mono hw).symm⟩
      | refl a => exact .inl rfl
      | symm a b _ ih =>
        rcases ih with e | ⟨h1, h2, h3⟩
        · exact .inl e.symm
        · exact .inr ⟨h2, h1, h3.symm⟩
      | trans a b c _ _ ih1 ih2 =>
        rcases ih1 with e | ⟨h1, h2, h3⟩
        · rw [e]; exact ih2
        · rcases ih2 with e | ⟨k1, k2, k3⟩
          · rw [← e]; exact .inr ⟨h1, h2, h3⟩
          · exact .inr ⟨h1, k2, h3.trans k3⟩
    rcases this u v c with e | ⟨-, -, j⟩
    · exact absurd e huv
    · exact j
  · rintro ⟨a, ha, hw, au, av⟩
    exact ((D.above_vertex hu ha au).trans (D.above_vertex hv ha av).symm).mono (fun e _ he => he.trans hw)

/-! ## Shape -/

/-- The last place lies above every node. -/
lemma above_root {x : ℕ} (hx : x < m) : Above par (m - 1) x := by
  have key' : ∀ d e, e < m → ∀ i < L, off i ≤ e → e < off (i + 1) → i + d + 1 = L → Above par (m - 1) (rev e) := by
    intro d
    induction d using Nat.strong_induction_on with
    | _ d ih =>
      intro e he i hi h1 h2 hd
      obtain ⟨k, hk⟩ := H.top_exists he
      have hik : i < k := by
        by_contra h
        have := H.off_mono (by omega : k ≤ i) hi.le
        have := hk.lt
        omega
      by_cases hkL : k < L
      · have hes := (H.range e he).1
        obtain ⟨a1, a2⟩ := H.alpha_mem k hkL _ hes
        exact above_trans (ih (L - k - 1) (by omega) _ (H.alpha_lt hkL hes) k hkL a1 a2 (by omega))
          (D.above_alpha hkL hk)
      · have hkL : k = L := by have := hk.le; omega
        subst hkL
        have hl := D.last_root
        have hm := D.pos
        obtain ⟨r1, r2⟩ := D.inv e he
        refine D.above_chain (by omega) (by omega) ?_
        rw [r2]
        exact (D.chain _ _ _ _ hk hl).mpr ⟨rfl, H.lab_last _ (H.range e he).1 _
          (H.range _ (D.perm (m - 1) (by omega)).1).1⟩
  obtain ⟨h1, h2⟩ := D.perm x hx
  obtain ⟨i, hi, a, b⟩ := H.level h1
  have := key' (L - i - 1) (τ x) h1 i hi a b (by omega)
  rwa [h2] at this

lemma above_root_vertex {v : ℕ} (hv : v < n) : Above par (m - 1) (m + vert v) :=
  .step (D.par_vertex v hv) (D.above_root (D.inv _ (D.alpha_zero_end hv).1).1)

omit D in
/-- Which of the two places below the edge at place `p`, of iteration `i`, child `x` takes. -/
def Slot (m n : ℕ) (src : ℕ → ℕ) (key : ℕ → κ) (L : ℕ) (off : ℕ → ℕ) (lab : ℕ → ℕ → ℕ) (α : ℕ → ℕ → ℕ)
    (cid : ℕ → ℤ) (τ vert : ℕ → ℕ) (p i x : ℕ) (b : Prop) : Prop :=
  (x + 1 = p ∧ cid (τ x) = cid (τ p) ∧ (b ↔ α i (lab i (src (τ p))) ≠ τ p)) ∨
  (∃ v < n, α i (lab i v) = τ p ∧ (b ↔ lab i v = lab i (src (τ p))) ∧
    ((i = 0 ∧ x = m + vert v) ∨
      (x + 1 < m ∧ cid (τ x) ≠ cid (τ (x + 1)) ∧ Top src key L off lab α (τ x) i ∧ lab i (src (τ x)) = lab i v)))

omit [LinearOrder W] D in
/-- The iteration of an edge is unique. -/
lemma level_unique (H : Levels n m src tgt key L off lab α) {e i j : ℕ} (hi : i < L) (hj : j < L) (h1 : off i ≤ e) (h2 : e < off (i + 1))
    (h3 : off j ≤ e) (h4 : e < off (j + 1)) : i = j := by
  rcases lt_trichotomy i j with h | h | h
  · have := H.off_mono (by omega : i + 1 ≤ j) hj.le
    omega
  · exact h
  · have := H.off_mono (by omega : j + 1 ≤ i) hi.le
    omega

lemma slot_exists {p i x : ℕ} (hp : p < m) (hi : i < L) (h1 : off i ≤ τ p) (h2 : τ p < off (i + 1))
    (hx : x ≤ 2 * m) (hpar : par x = some (p : ℤ)) : ∃ b, Slot m n src key L off lab α cid τ vert p i x b := by
  by_cases hxm : x < m
  · rcases D.parent_cases hxm with ⟨-, h⟩ | ⟨a1, a2, h⟩ | ⟨k, hk, ht, a1, a2, h⟩
    · rw [hpar] at h
      have := Option.some.inj h
      omega
    · rw [hpar] at h
      have := Int.ofNat.inj (Option.some.inj h)
      subst this
      exact ⟨_, .inl ⟨rfl, a2, Iff.rfl⟩⟩
    · rw [hpar] at h
      have := Int.ofNat.inj (Option.some.inj h)
      have hs := (H.range _ (D.perm x hxm).1).1
      have hτp : τ p = α k (lab k (src (τ x))) := by
        rw [this, (D.inv _ (H.alpha_lt hk hs)).2]
      obtain ⟨b1, b2⟩ := H.alpha_mem k hk _ hs
      rw [← hτp] at b1 b2
      have := level_unique H hi hk h1 h2 b1 b2
      subst this
      exact ⟨_, .inr ⟨_, hs, hτp.symm, Iff.rfl, .inr ⟨a1, a2, ht, rfl⟩⟩⟩
  · have hsz := D.size
    obtain ⟨v, hv, e⟩ := IsPerm.surj D.vertices (show x - m < n by omega)
    have hxe : x = m + vert v := by omega
    subst hxe
    rw [D.par_vertex v hv] at hpar
    have := Int.ofNat.inj (Option.some.inj hpar)
    have hτp : τ p = α 0 v := by rw [← this, (D.inv _ (D.alpha_zero_end hv).1).2]
    have hL := H.pos_of D.pos
    obtain ⟨b1, b2⟩ := H.alpha_mem 0 hL v hv
    rw [H.lab_zero v hv, ← hτp] at b1 b2
    have := level_unique H hi hL h1 h2 b1 b2
    subst this
    exact ⟨_, .inr ⟨v, hv, by rw [H.lab_zero v hv, hτp], Iff.rfl, .inl ⟨rfl, rfl⟩⟩⟩

lemma slot_inj {p i x y : ℕ} {b : Prop} (hp : p < m) (hi : i < L) (h1 : off i ≤ τ p) (h2 : τ p < off (i + 1))
    (hx : Slot m n src key L off lab α cid τ vert p i x b) (hy : Slot m n src key L off lab α cid τ vert p i y b) :
    x = y := by
  obtain ⟨ps, pt⟩ := H.range _ (D.perm p hp).1
  -- a component that chose the edge, and a predecessor in the chain
  have mixed : ∀ x : ℕ, (x + 1 = p ∧ cid (τ x) = cid (τ p) ∧ (b ↔ α i (lab i (src (τ p))) ≠ τ p)) →
      (∃ v < n, α i (lab i v) = τ p ∧ (b ↔ lab i v = lab i (src (τ p)))) → False := by
    rintro x ⟨a1, a2, a3⟩ ⟨v, hv, c1, c2⟩
    by_cases hb : b
    · exact a3.mp hb (by rw [← c2.mp hb]; exact c1)
    · have hs : α i (lab i (src (τ p))) = τ p := by
        by_contra h
        exact hb (a3.mpr h)
      have hne : lab i v ≠ lab i (src (τ p)) := fun h => hb (c2.mpr h)
      have ht : α i (lab i (tgt (τ p))) = τ p := by
        have := H.alpha_cross i hi v hv
        rw [c1] at this
        rcases this with ⟨h, -⟩ | ⟨h, -⟩
        · exact absurd h.symm hne
        · rw [h]; exact c1
      obtain ⟨k, hk⟩ := H.top_exists (D.perm p hp).1
      have hxm : x < m := by omega
      obtain ⟨l, hl⟩ := H.top_exists (D.perm x hxm).1
      obtain ⟨rfl, hlab⟩ := (D.chain _ _ _ _ hl hk).mp a2
      -- the first place of the chain
      obtain ⟨z, z1, z2, z3⟩ : ∃ z ≤ x, cid (τ z) = cid (τ x) ∧ (z = 0 ∨ cid (τ (z - 1)) ≠ cid (τ z)) := by
        have : ∀ x, ∃ z ≤ x, cid (τ z) = cid (τ x) ∧ (z = 0 ∨ cid (τ (z - 1)) ≠ cid (τ z)) := by
          intro x
          induction x with
          | zero => exact ⟨0, le_rfl, rfl, .inl rfl⟩
          | succ x ih =>
            by_cases h : cid (τ x) = cid (τ (x + 1))
            · obtain ⟨z, z1, z2, z3⟩ := ih
              exact ⟨z, by omega, z2.trans h, z3⟩
            · exact ⟨x + 1, le_rfl, rfl, .inr h⟩
        exact this x
      have hzm : z < m := by omega
      have hne' : τ p ≠ τ z := by
        intro e
        have e1 := (D.perm p hp).2
        have e2 := (D.perm z hzm).2
        rw [e, e2] at e1
        omega
      have hlt := D.first z hzm z3 (τ p) (D.perm p hp).1 (by rw [z2, a2]) hne'
      obtain ⟨r, hr⟩ := H.top_exists (D.perm z hzm).1
      obtain ⟨rfl, hlab'⟩ := (D.chain _ _ _ _ hr hk).mp (z2.trans a2)
      exact absurd (H.mutual_least hi h1 h2 hs ht hk hr hlab'.symm hne'.symm) (not_lt.mpr hlt.le)
  rcases hx with hx | hx <;> rcases hy with hy | hy
  · omega
  · obtain ⟨v, hv, c1, c2, -⟩ := hy
    exact absurd (mixed x hx ⟨v, hv, c1, c2⟩) id
  · obtain ⟨v, hv, c1, c2, -⟩ := hx
    exact absurd (mixed y hy ⟨v, hv, c1, c2⟩) id
  · obtain ⟨u, hu, c1, c2, c3⟩ := hx
    obtain ⟨v, hv, d1, d2, d3⟩ := hy
    -- the same component
    have hlab : lab i u = lab i v := by
      by_cases hb : b
      · exact (c2.mp hb).trans (d2.mp hb).symm
      · have oth : ∀ u < n, α i (lab i u) = τ p → (b ↔ lab i u = lab i (src (τ p))) → lab i u = lab i (tgt (τ p)) := by
          intro u hu c1 c2
          have := H.alpha_cross i hi u hu
          rw [c1] at this
          rcases this with ⟨h, -⟩ | ⟨h, -⟩
          · exact absurd (c2.mpr h.symm) hb
          · exact h.symm
        exact (oth u hu c1 c2).trans (oth v hv d1 d2).symm
    rcases c3 with ⟨e1, e2⟩ | ⟨e1, e2, e3, e4⟩ <;> rcases d3 with ⟨f1, f2⟩ | ⟨f1, f2, f3, f4⟩
    · subst e1
      rw [H.lab_zero u hu, H.lab_zero v hv] at hlab
      rw [e2, f2, hlab]
    · have := f3.lt
      rw [e1, H.off_zero] at this
      omega
    · have := e3.lt
      rw [f1, H.off_zero] at this
      omega
    · have hc := (D.chain _ _ _ _ e3 f3).mpr ⟨rfl, e4.trans (hlab.trans f4.symm)⟩
      rcases lt_trichotomy x y with h | h | h
      · have a1 := D.sorted x (x + 1) (by omega) e1
        have a2 := D.sorted (x + 1) y (by omega) (by omega)
        omega
      · exact h
      · have a1 := D.sorted y (y + 1) (by omega) f1
        have a2 := D.sorted (y + 1) x (by omega) (by omega)
        omega

/-- Every edge is the parent of exactly two nodes. -/
lemma binary {p : ℕ} (hp : p < m) :
    ∃ a ≤ 2 * m, ∃ b ≤ 2 * m, a ≠ b ∧ ∀ x ≤ 2 * m, par x = some (p : ℤ) ↔ x = a ∨ x = b := by
  classical
  have hsz := D.size
  -- the parent of every node but the root
  have hpar : ∀ x ∈ (Finset.range (2 * m + 1)).erase (m - 1), ∃ q < m, par x = some (q : ℤ) := by
    intro x hx
    rw [Finset.mem_erase, Finset.mem_range] at hx
    by_cases hxm : x < m
    · rcases D.parent_cases hxm with ⟨h, -⟩ | ⟨a1, -, h⟩ | ⟨k, hk, ht, a1, a2, h⟩
      · exact absurd h hx.1
      · exact ⟨x + 1, a1, h⟩
      · exact ⟨_, (D.inv _ (H.alpha_lt hk (H.range _ (D.perm x hxm).1).1)).1, h⟩
    · obtain ⟨v, hv, e⟩ := IsPerm.surj D.vertices (show x - m < n by omega)
      have hxe : x = m + vert v := by omega
      rw [hxe]
      exact ⟨_, (D.inv _ (D.alpha_zero_end hv).1).1, D.par_vertex v hv⟩
  let S := (Finset.range (2 * m + 1)).erase (m - 1)
  let f : ℕ → ℕ := fun x => if h : ∃ q < m, par x = some (q : ℤ) then h.choose else 0
  have hf : ∀ x ∈ S, f x < m ∧ par x = some (f x : ℤ) := by
    intro x hx
    have h := hpar x hx
    simp only [f, dif_pos h]
    exact h.choose_spec
  have hcard : S.card = 2 * m := by
    have hm := D.pos
    rw [Finset.card_erase_of_mem (by rw [Finset.mem_range]; omega), Finset.card_range]
    rfl
  have hsum := Finset.card_eq_sum_card_fiberwise (f := f) (s := S) (t := Finset.range m)
    (fun x hx => Finset.mem_coe.mpr (Finset.mem_range.mpr (hf x (Finset.mem_coe.mp hx)).1))
  have hle : ∀ q ∈ Finset.range m, (S.filter (fun x => f x = q)).card ≤ 2 := by
    intro q hq
    rw [Finset.mem_range] at hq
    obtain ⟨i, hi, h1, h2⟩ := H.level (D.perm q hq).1
    have hch : ∀ x ∈ S.filter (fun x => f x = q), ∃ b, Slot m n src key L off lab α cid τ vert q i x b := by
      intro x hx
      rw [Finset.mem_filter] at hx
      have := (hf x hx.1).2
      rw [hx.2] at this
      have hx1 := (Finset.mem_erase.mp hx.1).2
      rw [Finset.mem_range] at hx1
      exact D.slot_exists hq hi h1 h2 (by omega) this
    let g : ℕ → Bool := fun x => if h : ∃ b, Slot m n src key L off lab α cid τ vert q i x b then decide h.choose else false
    have := Finset.card_le_card_of_injOn (s := S.filter (fun x => f x = q)) (t := (Finset.univ : Finset Bool)) g
      (fun _ _ => Finset.mem_coe.mpr (Finset.mem_univ _)) (by
        intro x hx y hy hxy
        have hx := hch x (Finset.mem_coe.mp hx)
        have hy := hch y (Finset.mem_coe.mp hy)
        simp only [g, dif_pos hx, dif_pos hy] at hxy
        have e : hx.choose = hy.choose := by
          by_cases h : hy.choose
          · rw [decide_eq_true h] at hxy
            exact propext ⟨fun _ => h, fun _ => of_decide_eq_true hxy⟩
          · rw [decide_eq_false h] at hxy
            exact propext ⟨fun a => absurd a (of_decide_eq_false hxy), fun a => absurd a h⟩
        have sx := hx.choose_spec
        have sy := hy.choose_spec
        rw [← e] at sy
        exact D.slot_inj hq hi h1 h2 sx sy)
    simpa using this
  have heq : ∀ q ∈ Finset.range m, (S.filter (fun x => f x = q)).card = 2 := by
    refine (Finset.sum_eq_sum_iff_of_le hle).mp ?_
    rw [← hsum, hcard, Finset.sum_const, Finset.card_range, nsmul_eq_mul, Nat.mul_comm]
    rfl
  obtain ⟨a, b, hab, hS⟩ := Finset.card_eq_two.mp (heq p (Finset.mem_range.mpr hp))
  have hrange : ∀ x ∈ ({a, b} : Finset ℕ), x ≤ 2 * m := by
    intro x hx
    rw [← hS, Finset.mem_filter, Finset.mem_erase, Finset.mem_range] at hx
    omega
  refine ⟨a, hrange a (by simp), b, hrange b (by simp), hab, fun x hx => ?_⟩
  have hmem : x ∈ S.filter (fun x => f x = p) ↔ x = a ∨ x = b := by
    rw [hS, Finset.mem_insert, Finset.mem_singleton]
  rw [← hmem, Finset.mem_filter]
  constructor
  · intro h
    have hxS : x ∈ S := by
      rw [Finset.mem_erase, Finset.mem_range]
      refine ⟨fun e => ?_, by omega⟩
      rw [e, D.par_last] at h
      have := Option.some.inj h
      omega
    refine ⟨hxS, ?_⟩
    have := (hf x hxS).2
    rw [h] at this
    exact (Int.ofNat.inj (Option.some.inj this)).symm
  · rintro ⟨hxS, e⟩
    rw [(hf x hxS).2, e]

end Laid

end ArborX.Hdbscan
