import Verif.Construction.Proofs

set_option linter.unusedSectionVars false

namespace ArborX.Construction

open Function (update)

variable {α V : Type} [SemilatticeSup V] [OrderBot V] {P : Params α V}

lemma karras_mem {l r : ℕ} (h : l ≤ r) : l ≤ karras P l r ∧ karras P l r ≤ r := by
  unfold karras; split_ifs <;> omega

lemma Built.frame' {L I L' I'} {l r : ℕ} {T : BTree} (h : Built P L I l r T)
    (hL : ∀ i, l ≤ i → i ≤ r → L' i = L i ∧ I' i = I i) : Built P L' I' l r T :=
  h.frame (fun i a b => (hL i a b).1) (fun i a b => (hL i a.le b.le).2)
    (fun a => (hL _ (karras_mem a.le).1 (karras_mem a.le).2).2)

variable (P)

def par (l r : ℕ) : ℕ := if isLeft P l r then r else l - 1
def far (l r : ℕ) : ℕ := if isLeft P l r then l else r

def IsRoot (l r : ℕ) : Prop := l = 0 ∧ r = P.m

def ThrInv (s : State α V) (t : ℕ) (b : Option (ℕ × ℕ)) : Prop :=
  match s.thr t with
  | .init => b = some (t, t)
  | .loop i l r dl dr bv => b = some (l, r) ∧ i = idOf P l r ∧ dl = dL P l ∧ dr = dR P r ∧
      ¬ IsRoot P l r ∧ ∃ T, Built P s.leaf s.internal l r T ∧ bv = T.vol (vl P)
  | .readR i l r dl bv p => b = some (l, r) ∧ i = idOf P l p ∧ dl = dL P l ∧ isLeft P l p ∧
      ¬ isLeft P (p+1) r ∧ ∃ x y, Built P s.leaf s.internal l p x ∧
        Built P s.leaf s.internal (p+1) r y ∧ bv = x.vol (vl P)
  | .readL l r dr bv p => b = some (l, r) ∧ dr = dR P r ∧ isLeft P l p ∧
      ¬ isLeft P (p+1) r ∧ ∃ x y, Built P s.leaf s.internal l p x ∧
        Built P s.leaf s.internal (p+1) r y ∧ bv = y.vol (vl P)
  | .write l r dl dr bv left => b = some (l, r) ∧ dl = dL P l ∧ dr = dR P r ∧ ∃ p,
      left = idOf P l p ∧ isLeft P l p ∧
      ¬ isLeft P (p+1) r ∧ ∃ x y, Built P s.leaf s.internal l p x ∧
        Built P s.leaf s.internal (p+1) r y ∧ bv = (BTree.node x y).vol (vl P)
  | .done => b = none ∨ (∃ T, b = some (0, P.m) ∧ Built P s.leaf s.internal 0 P.m T) ∨
      ∃ l r T, b = some (l, r) ∧ ¬ IsRoot P l r ∧ Built P s.leaf s.internal l r T ∧
        s.ranges (par P l r) = some (far P l r)
  | .fault => False

structure Inv (s : State α V) (blk : ℕ → Option (ℕ × ℕ)) : Prop where
  thr : ∀ t ≤ P.m, ThrInv P s t (blk t)
  out : ∀ t l r, blk t = some (l, r) → t ≤ P.m ∧ l ≤ r ∧ r ≤ P.m
  disj : ∀ t t' l r l' r', t ≠ t' → blk t = some (l, r) → blk t' = some (l', r') → r < l' ∨ r' < l
  cover : ∀ j ≤ P.m, ∃ t l r, blk t = some (l, r) ∧ l ≤ j ∧ j ≤ r
  rng : ∀ p x, s.ranges p = some x → (∃ t l r, blk t = some (l, r) ∧ l ≤ p ∧ p < r) ∨
    ∃ t l r, s.thr t = .done ∧ blk t = some (l, r) ∧ ¬ IsRoot P l r ∧ par P l r = p ∧ far P l r = x

variable {P}

lemma ThrInv.frame {s s' : State α V} {t : ℕ} {b : Option (ℕ × ℕ)} (h : ThrInv P s t b)
    (ht : s'.thr t = s.thr t)
    (hm : ∀ l r, b = some (l, r) → ∀ i, l ≤ i → i ≤ r →
      s'.leaf i = s.leaf i ∧ s'.internal i = s.internal i)
    (hr : ∀ p x, s.ranges p = some x → s'.ranges p = some x) : ThrInv P s' t b := by
  unfold ThrInv at *
  rw [ht]
  revert h
  cases s.thr t with
  | init => exact id
  | loop i l r dl dr bv =>
    rintro ⟨h1, h2, h3, h4, h5, T, h6, h7⟩
    exact ⟨h1, h2, h3, h4, h5, T, h6.frame' (hm l r h1), h7⟩
  | readR i l r dl bv p =>
    rintro ⟨h1, h2, h3, h4, h5, x, y, h6, h6', h7⟩
    have := h6.le; have := h6'.le
    exact ⟨h1, h2, h3, h4, h5, x, y, h6.frame' (fun i a b => hm l r h1 i a (by omega)),
      h6'.frame' (fun i a b => hm l r h1 i (by omega) b), h7⟩
  | readL l r dr bv p =>
    rintro ⟨h1, h3, h4, h5, x, y, h6, h6', h7⟩
    have := h6.le; have := h6'.le
    exact ⟨h1, h3, h4, h5, x, y, h6.frame' (fun i a b => hm l r h1 i a (by omega)),
      h6'.frame' (fun i a b => hm l r h1 i (by omega) b), h7⟩
  | write l r dl dr bv left =>
    rintro ⟨h1, h2, h3, p, hp, h4, h5, x, y, h6, h6', h7⟩
    have := h6.le; have := h6'.le
    exact ⟨h1, h2, h3, p, hp, h4, h5, x, y, h6.frame' (fun i a b => hm l r h1 i a (by omega)),
      h6'.frame' (fun i a b => hm l r h1 i (by omega) b), h7⟩
  | done =>
    rintro (h | ⟨T, h1, h2⟩ | ⟨l, r, T, h1, h2, h3, h4⟩)
    · exact .inl h
    · exact .inr (.inl ⟨T, h1, h2.frame' (hm _ _ h1)⟩)
    · exact .inr (.inr ⟨l, r, T, h1, h2, h3.frame' (hm _ _ h1), hr _ _ h4⟩)
  | fault => exact id

lemma inv_init : Inv P (initState : State α V)
    (fun t => if t ≤ P.m then some (t, t) else none) where
  thr := fun t ht => by simp [ThrInv, initState, ht]
  out := fun t l r h => by
    split_ifs at h with h1
    simp at h; omega
  disj := fun t t' l r l' r' hne h h' => by
    split_ifs at h h'
    simp at h h'; omega
  cover := fun j hj => ⟨j, j, j, by simp [hj], le_rfl, le_rfl⟩
  rng := fun p x h => by simp [initState] at h

/-- one-thread update that keeps the blocks -/
lemma Inv.local {s s' : State α V} {blk} (h : Inv P s blk) {t : ℕ} (ht : t ≤ P.m)
    (hnd : s.thr t ≠ .done)
    (hthr : ∀ t', t' ≠ t → s'.thr t' = s.thr t')
    (hrg : s'.ranges = s.ranges)
    (hmem : ∀ i, (∀ l r, blk t = some (l, r) → ¬ (l ≤ i ∧ i ≤ r)) →
      s'.leaf i = s.leaf i ∧ s'.internal i = s.internal i)
    (hnew : ThrInv P s' t (blk t)) : Inv P s' blk where
  thr := fun t' ht' => by
    by_cases e : t' = t
    · subst e; exact hnew
    · refine (h.thr t' ht').frame (hthr t' e) ?_ ?_
      · intro l r hb i hl hr
        apply hmem
        intro l' r' hb' hx
        rcases h.disj _ _ _ _ _ _ e hb hb' with h | h <;> omega
      · intro p x hp; rw [hrg]; exact hp
  out := h.out
  disj := h.disj
  cover := h.cover
  rng := fun p x hp => by
    rw [hrg] at hp
    rcases h.rng p x hp with h1 | ⟨t', l, r, h1, h2, h3⟩
    · exact .inl h1
    · refine .inr ⟨t', l, r, ?_, h2, h3⟩
      rw [hthr t' (by rintro rfl; exact hnd h1)]; exact h1

lemma Inv.setThr {s : State α V} {blk} (h : Inv P s blk) {t : ℕ} (ht : t ≤ P.m)
    (hnd : s.thr t ≠ .done) {x : TS V} (hnew : ThrInv P (setThr s t x) t (blk t)) :
    Inv P (setThr s t x) blk := by
  refine h.local ht hnd ?_ rfl ?_ hnew
  · intro t' e; simp [Construction.setThr, e]
  · intro i _; exact ⟨rfl, rfl⟩

variable (g : Good P)
include g

lemma par_lt {l r : ℕ} (h : ¬ IsRoot P l r) (hr : r ≤ P.m) (hlr : l ≤ r) : par P l r < P.m ∧ (¬ isLeft P l r → 0 < l) := by
  unfold par
  split_ifs with h1
  · exact ⟨isLeft_lt g h1, fun h => absurd h1 h⟩
  · have : 0 < l := by
      by_contra hl
      have hl : l = 0 := by omega
      subst hl
      exact h ⟨rfl, by have := not_isLeft_zero g h1; omega⟩
    exact ⟨by omega, fun _ => this⟩

/-- the sibling deposited at `p` -/
lemma Inv.sibling_left {s : State α V} {blk} (h : Inv P s blk) {t l r x : ℕ}
    (hnd : s.thr t ≠ .done) (hb : blk t = some (l, r))
    (hx : s.ranges r = some x) :
    ∃ t', t' ≠ t ∧ s.thr t' = .done ∧ blk t' = some (r+1, x) ∧ ¬ isLeft P (r+1) x ∧
      ∃ T, Built P s.leaf s.internal (r+1) x T := by
  have o := h.out _ _ _ hb
  rcases h.rng r x hx with ⟨t', l', r', hb', h1, h2⟩ | ⟨t', l', r', hd, hb', hroot, hp, hf⟩
  · exfalso
    by_cases e : t = t'
    · subst e; rw [hb] at hb'; simp at hb'; omega
    · rcases h.disj _ _ _ _ _ _ e hb hb' with h | h <;> omega
  · have e : t' ≠ t := by rintro rfl; exact hnd hd
    have o' := h.out _ _ _ hb'
    have hpl := par_lt g hroot o'.2.2 o'.2.1
    by_cases hl' : isLeft P l' r'
    · exfalso
      rw [par, if_pos hl'] at hp
      rcases h.disj _ _ _ _ _ _ e hb' hb with h | h <;> omega
    · rw [par, if_neg hl'] at hp
      rw [far, if_neg hl'] at hf
      have hp0 := hpl.2 hl'
      have : l' = r + 1 := by omega
      subst this hf
      refine ⟨t', e, hd, hb', hl', ?_⟩
      have := h.thr t' o'.1
      unfold ThrInv at this
      rw [hd] at this
      rcases this with h | ⟨T, h1, h2⟩ | ⟨l, r, T, h1, h2, h3, h4⟩
      · rw [hb'] at h; simp at h
      · rw [hb'] at h1; simp at h1
      · rw [hb'] at h1; simp at h1; obtain ⟨rfl, rfl⟩ := h1; exact ⟨T, h3⟩

lemma Inv.sibling_right {s : State α V} {blk} (h : Inv P s blk) {t l r x : ℕ}
    (hnd : s.thr t ≠ .done) (hb : blk t = some (l, r)) (hl0 : 0 < l)
    (hx : s.ranges (l-1) = some x) :
    ∃ t', t' ≠ t ∧ s.thr t' = .done ∧ blk t' = some (x, l-1) ∧ isLeft P x (l-1) ∧
      ∃ T, Built P s.leaf s.internal x (l-1) T := by
  have o := h.out _ _ _ hb
  rcases h.rng (l-1) x hx with ⟨t', l', r', hb', h1, h2⟩ | ⟨t', l', r', hd, hb', hroot, hp, hf⟩
  · exfalso
    by_cases e : t = t'
    · subst e; rw [hb] at hb'; simp at hb'; omega
    · rcases h.disj _ _ _ _ _ _ e hb hb' with h | h <;> omega
  · have e : t' ≠ t := by rintro rfl; exact hnd hd
    have o' := h.out _ _ _ hb'
    have hpl := par_lt g hroot o'.2.2 o'.2.1
    by_cases hl' : isLeft P l' r'
    · rw [par, if_pos hl'] at hp
      rw [far, if_pos hl'] at hf
      subst hp hf
      refine ⟨t', e, hd, hb', hl', ?_⟩
      have := h.thr t' o'.1
      unfold ThrInv at this
      rw [hd] at this
      rcases this with h | ⟨T, h1, h2⟩ | ⟨l, r, T, h1, h2, h3, h4⟩
      · rw [hb'] at h; simp at h
      · rw [hb'] at h1; simp at h1; omega
      · rw [hb'] at h1; simp at h1; obtain ⟨rfl, h1⟩ := h1; rw [h1]; exact ⟨T, h3⟩
    · exfalso
      rw [par, if_neg hl'] at hp
      have hp0 := hpl.2 hl'
      rcases h.disj _ _ _ _ _ _ e hb' hb with h | h <;> omega

/-- the winning thread absorbs the sibling's block -/
lemma Inv.absorb {s : State α V} {blk} (h : Inv P s blk) {t t' l r l' r' L R : ℕ} (ht : t ≤ P.m)
    (hnd : s.thr t ≠ .done) (hd : s.thr t' = .done)
    (hb : blk t = some (l, r)) (hb' : blk t' = some (l', r'))
    (hLR : (l = L ∧ r + 1 = l' ∧ r' = R ∧ ¬ isLeft P l' r') ∨
      (l' = L ∧ r' + 1 = l ∧ r = R ∧ isLeft P l' r'))
    {x : TS V} (hnew : ThrInv P (Construction.setThr s t x) t (some (L, R))) :
    Inv P (Construction.setThr s t x) (update (update blk t' none) t (some (L, R))) := by
  have e : t' ≠ t := by rintro rfl; exact hnd hd
  have o := h.out _ _ _ hb
  have o' := h.out _ _ _ hb'
  have key : ∀ u a b, (update (update blk t' none) t (some (L, R))) u = some (a, b) →
      (u = t ∧ a = L ∧ b = R) ∨ (u ≠ t ∧ u ≠ t' ∧ blk u = some (a, b)) := by
    intro u a b hu
    by_cases e1 : u = t
    · subst e1; simp at hu; omega
    · by_cases e2 : u = t'
      · subst e2; simp [e1] at hu
      · simp [e1, e2] at hu; exact .inr ⟨e1, e2, hu⟩
  constructor
  · intro u hu
    by_cases e1 : u = t
    · subst e1; simpa using hnew
    · by_cases e2 : u = t'
      · subst e2
        simp [e1, ThrInv, Construction.setThr, hd]
      · have : (update (update blk t' none) t (some (L, R))) u = blk u := by simp [e1, e2]
        rw [this]
        refine (h.thr u hu).frame ?_ ?_ ?_
        · simp [Construction.setThr, e1]
        · intros; exact ⟨rfl, rfl⟩
        · intro p y hp; exact hp
  · intro u a b hu
    rcases key u a b hu with ⟨rfl, rfl, rfl⟩ | ⟨_, _, hv⟩
    · omega
    · exact h.out _ _ _ hv
  · intro u u' a b a' b' hne hu hu'
    rcases key u a b hu with ⟨e1, rfl, rfl⟩ | ⟨h1, h2, hv⟩ <;>
      rcases key u' a' b' hu' with ⟨e2, rfl, rfl⟩ | ⟨h1', h2', hv'⟩
    · exact absurd (e1.trans e2.symm) hne
    · have a1 := h.disj _ _ _ _ _ _ h1' hv' hb
      have a2 := h.disj _ _ _ _ _ _ h2' hv' hb'
      have a3 := h.out _ _ _ hv'
      omega
    · have a1 := h.disj _ _ _ _ _ _ h1 hv hb
      have a2 := h.disj _ _ _ _ _ _ h2 hv hb'
      have a3 := h.out _ _ _ hv
      omega
    · exact h.disj _ _ _ _ _ _ hne hv hv'
  · intro j hj
    obtain ⟨u, a, b, hu, h1, h2⟩ := h.cover j hj
    by_cases e1 : u = t
    · subst e1
      rw [hb] at hu; simp at hu
      exact ⟨u, L, R, by simp, by omega, by omega⟩
    · by_cases e2 : u = t'
      · subst e2
        rw [hb'] at hu; simp at hu
        exact ⟨t, L, R, by simp, by omega, by omega⟩
      · exact ⟨u, a, b, by simp [e1, e2, hu], h1, h2⟩
  · intro p y hp
    rcases h.rng p y hp with ⟨u, a, b, hu, h1, h2⟩ | ⟨u, a, b, hd', hu, hroot, hpp, hf⟩
    · left
      by_cases e1 : u = t
      · subst e1
        rw [hb] at hu; simp at hu
        exact ⟨u, L, R, by simp, by omega, by omega⟩
      · by_cases e2 : u = t'
        · subst e2
          rw [hb'] at hu; simp at hu
          exact ⟨t, L, R, by simp, by omega, by omega⟩
        · exact ⟨u, a, b, by simp [e1, e2, hu], h1, h2⟩
    · have e1 : u ≠ t := by rintro rfl; exact hnd hd'
      by_cases e2 : u = t'
      · -- the absorbed block's deposit is now interior
        subst e2
        rw [hb'] at hu; simp at hu
        obtain ⟨rfl, rfl⟩ := hu
        left
        refine ⟨t, L, R, by simp, ?_⟩
        -- its parent split is between the two blocks
        have : p = if isLeft P l' r' then r' else l' - 1 := hpp.symm
        have hpl := par_lt g hroot o'.2.2 o'.2.1
        split_ifs at this with h3
        · rcases hLR with ⟨q1, q2, q3, q4⟩ | ⟨q1, q2, q3, q4⟩
          · exact absurd h3 q4
          · omega
        · have := hpl.2 h3
          rcases hLR with ⟨q1, q2, q3, q4⟩ | ⟨q1, q2, q3, q4⟩
          · omega
          · exact absurd q4 h3
      · right
        exact ⟨u, a, b, by simpa [Construction.setThr, e1] using hd', by simp [e1, e2, hu], hroot, hpp, hf⟩

/-- deposit -/
lemma Inv.deposit {s : State α V} {blk} (h : Inv P s blk) {t l r : ℕ} {T : BTree} (ht : t ≤ P.m)
    (hnd : s.thr t ≠ .done) (hb : blk t = some (l, r)) (hroot : ¬ IsRoot P l r)
    (hT : Built P s.leaf s.internal l r T) (hx : s.ranges (par P l r) = none) :
    Inv P { s with ranges := update s.ranges (par P l r) (some (far P l r)),
                   thr := update s.thr t .done } blk := by
  constructor
  · intro u hu
    by_cases e : u = t
    · subst e
      simp only [ThrInv, Function.update_self]
      exact .inr (.inr ⟨l, r, T, hb, hroot, hT, by simp⟩)
    · refine (h.thr u hu).frame ?_ ?_ ?_
      · simp [e]
      · intros; exact ⟨rfl, rfl⟩
      · intro p x hp
        have : p ≠ par P l r := by rintro rfl; rw [hx] at hp; simp at hp
        simpa [this] using hp
  · exact h.out
  · exact h.disj
  · exact h.cover
  · intro p x hp
    by_cases e : p = par P l r
    · subst e
      simp at hp
      exact .inr ⟨t, l, r, by simp, hb, hroot, rfl, hp⟩
    · simp [e] at hp
      rcases h.rng p x hp with h1 | ⟨u, a, b, h1, h2, h3⟩
      · exact .inl h1
      · refine .inr ⟨u, a, b, ?_, h2, h3⟩
        by_cases e : u = t
        · simp [e]
        · simpa [e] using h1

lemma readVol_built {s : State α V} {l r : ℕ} {T : BTree}
    (hT : Built P s.leaf s.internal l r T) :
    readVol P s (decide (l = r)) (karras P l r) = some (T.vol (vl P)) := by
  cases hT with
  | leaf i hi =>
    have : karras P l l = l := by unfold karras; split_ifs <;> rfl
    simp [readVol, this, hi, BTree.vol]
  | node l p r a b ha hb h1 h2 hk =>
    have := ha.le; have := hb.le
    have e : l ≠ r := by omega
    simp [readVol, e, hk, BTree.vol]

theorem inv_step {s : State α V} {blk} (h : Inv P s blk) (t : ℕ) :
    ∃ blk', Inv P (step P s t) blk' := by
  by_cases ht : t > P.m
  · exact ⟨blk, by rw [step, if_pos ht]; exact h⟩
  have ht' : t ≤ P.m := by omega
  have hI := h.thr t ht'
  unfold ThrInv at hI
  rw [step, if_neg ht]
  cases hs : s.thr t with
  | init =>
    rw [hs] at hI
    simp only at hI
    refine ⟨blk, h.local ht' (by rw [hs]; simp) ?_ rfl ?_ ?_⟩
    · intro t' e; simp [e]
    · intro i hi
      have : i ≠ t := by rintro rfl; exact hi i i hI ⟨le_rfl, le_rfl⟩
      simp [this]
    · simp only [ThrInv, Function.update_self]
      refine ⟨hI, by simp [idOf], rfl, rfl, ?_, .leaf t, .leaf t (by simp [ropeOf, dR]), by simp [BTree.vol]⟩
      rintro ⟨h1, h2⟩
      have := g.pos; omega
  | loop i l r dl dr bv =>
    rw [hs] at hI
    obtain ⟨hb, hi, hdl, hdr, hroot, T, hT, hbv⟩ := hI
    have o := h.out _ _ _ hb
    have hp := par_lt g hroot o.2.2 o.2.1
    have hnd : s.thr t ≠ .done := by rw [hs]; simp
    dsimp only
    by_cases hl : dr < dl
    · have hl' : isLeft P l r := by unfold isLeft; rw [← hdl, ← hdr]; exact hl
      rw [if_pos hl, if_pos (isLeft_lt g hl')]
      have hpar : par P l r = r := by simp [par, hl']
      have hfar : far P l r = l := by simp [far, hl']
      cases hx : s.ranges r with
      | none =>
        have := h.deposit g ht' hnd hb hroot hT (by rw [hpar]; exact hx)
        rw [hpar, hfar] at this
        exact ⟨blk, this⟩
      | some x =>
        obtain ⟨t', e, hd, hb', hnl, T', hT'⟩ := h.sibling_left g hnd hb hx
        refine ⟨_, h.absorb g ht' hnd hd hb hb' (.inl ⟨rfl, rfl, rfl, hnl⟩) ?_⟩
        simp only [ThrInv, Construction.setThr, Function.update_self]
        exact ⟨trivial, hi, hdl, hl', hnl, T, T', hT, hT', hbv⟩
    · have hl' : ¬ isLeft P l r := by unfold isLeft; rw [← hdl, ← hdr]; exact hl
      have hl0 := hp.2 hl'
      have hpar : par P l r = l - 1 := by simp [par, hl']
      have hfar : far P l r = r := by simp [far, hl']
      rw [if_neg hl, if_pos ⟨hl0, hpar ▸ hp.1⟩]
      cases hx : s.ranges (l-1) with
      | none =>
        have := h.deposit g ht' hnd hb hroot hT (by rw [hpar]; exact hx)
        rw [hpar, hfar] at this
        exact ⟨blk, this⟩
      | some x =>
        obtain ⟨t', e, hd, hb', hnl, T', hT'⟩ := h.sibling_right g hnd hb hl0 hx
        have el : l - 1 + 1 = l := by omega
        refine ⟨_, h.absorb g ht' hnd hd hb hb' (.inr ⟨rfl, el, rfl, hnl⟩) ?_⟩
        simp only [ThrInv, Construction.setThr, Function.update_self]
        refine ⟨trivial, hdr, hnl, by rw [el]; exact hl', T', T, hT', by rw [el]; exact hT, hbv⟩
  | readR i l r dl bv p =>
    rw [hs] at hI
    obtain ⟨hb, hi, hdl, h1, h2, x, y, hx, hy, hbv⟩ := hI
    have hnd : s.thr t ≠ .done := by rw [hs]; simp
    have hk : karras P (p+1) r = p + 1 := by simp [karras, h2]
    have hrd := readVol_built g hy
    rw [hk] at hrd
    have e : (p + 1 == r) = decide (p + 1 = r) := rfl
    dsimp only
    rw [e, hrd]
    refine ⟨blk, h.setThr ht' hnd ?_⟩
    simp only [ThrInv, Construction.setThr, Function.update_self]
    exact ⟨hb, hdl, rfl, p, hi, h1, h2, x, y, hx, hy, by simp [BTree.vol, hbv]⟩
  | readL l r dr bv p =>
    rw [hs] at hI
    obtain ⟨hb, hdr, h1, h2, x, y, hx, hy, hbv⟩ := hI
    have hnd : s.thr t ≠ .done := by rw [hs]; simp
    have hk : karras P l p = p := by simp [karras, h1]
    have hrd := readVol_built g hx
    rw [hk] at hrd
    have e : (p == l) = decide (l = p) := by
      rw [Bool.eq_iff_iff]; simp only [beq_iff_eq, decide_eq_true_eq]; exact eq_comm
    dsimp only
    rw [e, hrd]
    refine ⟨blk, h.setThr ht' hnd ?_⟩
    simp only [ThrInv, Construction.setThr, Function.update_self]
    refine ⟨hb, rfl, hdr, p, ?_, h1, h2, x, y, hx, hy, by simp [BTree.vol, hbv, sup_comm]⟩
    unfold idOf
    by_cases e : l = p
    · simp [e]
    · simp [e, hk]
  | write l r dl dr bv left =>
    rw [hs] at hI
    obtain ⟨hb, hdl, hdr, p, hleft, h1, h2, x, y, hx, hy, hbv⟩ := hI
    have hnd : s.thr t ≠ .done := by rw [hs]; simp
    have o := h.out _ _ _ hb
    have lx := hx.le
    have ly := hy.le
    have hk : (if dr < dl then r else l) = karras P l r := by
      unfold karras isLeft; rw [hdl, hdr]
    dsimp only
    rw [hk]
    have hlt : karras P l r < P.m := by
      unfold karras
      split_ifs with h
      · exact isLeft_lt g h
      · omega
    rw [if_pos hlt]
    -- the new subtree
    have hnew : Built P s.leaf (update s.internal (karras P l r)
        (some ⟨left, setRope P r dr, bv⟩)) l r (.node x y) := by
      have hkk : karras P l r = l ∨ karras P l r = r := by unfold karras; split_ifs <;> simp
      refine .node l p r x y (hx.frame (fun _ _ _ => rfl) ?_ ?_) (hy.frame (fun _ _ _ => rfl) ?_ ?_) h1 h2 ?_
      · intro k a b
        have : k ≠ karras P l r := by omega
        simp [this]
      · intro a
        have : karras P l p ≠ karras P l r := by
          rw [show karras P l p = p by simp [karras, h1]]; omega
        simp [this]
      · intro k a b
        have : k ≠ karras P l r := by omega
        simp [this]
      · intro a
        have : karras P (p+1) r ≠ karras P l r := by
          rw [show karras P (p+1) r = p+1 by simp [karras, h2]]; omega
        simp [this]
      · simp [hleft, hbv, ropeOf, hdr]
    refine ⟨blk, h.local ht' hnd ?_ rfl ?_ ?_⟩
    · intro t' e; simp [e]
    · intro i hi
      have : i ≠ karras P l r := by
        rintro rfl
        exact hi l r hb (karras_mem (by omega))
      simp [this]
    · by_cases hz : karras P l r = 0
      · have hroot : l = 0 ∧ r = P.m := by
          unfold karras at hz
          split_ifs at hz with h3
          · omega
          · refine ⟨hz, ?_⟩
            subst hz
            have := not_isLeft_zero g h3
            omega
        obtain ⟨rfl, rfl⟩ := hroot
        simp only [ThrInv, Function.update_self, hz, ne_eq, not_true, if_false]
        exact .inr (.inl ⟨.node x y, hb, by rw [hz] at hnew; exact hnew⟩)
      · have : internalIndex P (karras P l r) ≠ internalIndex P 0 := by
          simp only [internalIndex]; omega
        simp only [ThrInv, Function.update_self, ne_eq, this, not_false_eq_true, if_true]
        refine ⟨hb, ?_, hdl, hdr, ?_, .node x y, hnew, hbv⟩
        · simp only [idOf]; rw [if_neg (by omega)]
        · rintro ⟨rfl, rfl⟩
          apply hz
          unfold karras
          rw [if_neg]
          unfold isLeft
          rw [dL_zero, dR_ge P le_rfl]; exact lt_irrefl _
  | done => exact ⟨blk, h⟩
  | fault => rw [hs] at hI; exact hI.elim

theorem inv_run (sched : List ℕ) : ∃ blk, Inv P (run P sched) blk := by
  have : ∀ (l : List ℕ) (s : State α V) blk, Inv P s blk → ∃ blk', Inv P (l.foldl (step P) s) blk' := by
    intro l
    induction l with
    | nil => intro s blk h; exact ⟨blk, h⟩
    | cons t l ih =>
      intro s blk h
      obtain ⟨blk', h'⟩ := inv_step g h t
      exact ih _ _ h'
  exact this sched _ _ inv_init

/-- When all threads are done there is a single block, the root. -/
theorem Inv.complete {s : State α V} {blk} (h : Inv P s blk) (hc : Complete P s) :
    ∃ T, Built P s.leaf s.internal 0 P.m T := by
  by_contra hno
  -- every block is deposited
  have dep : ∀ t l r, blk t = some (l, r) → ¬ IsRoot P l r ∧
      s.ranges (par P l r) = some (far P l r) := by
    intro t l r hb
    have o := h.out _ _ _ hb
    have := h.thr t o.1
    unfold ThrInv at this
    rw [hc t o.1] at this
    rcases this with h1 | ⟨T, h1, h2⟩ | ⟨l', r', T, h1, h2, h3, h4⟩
    · rw [hb] at h1; simp at h1
    · exact absurd ⟨T, h2⟩ hno
    · rw [hb] at h1; simp at h1; obtain ⟨rfl, rfl⟩ := h1; exact ⟨h2, h4⟩
  -- every block deposits to its right
  have right : ∀ j, j ≤ P.m → ∀ t l r, blk t = some (l, r) → l = j → isLeft P l r := by
    intro j
    induction j using Nat.strong_induction_on with
    | _ j ih =>
      intro hj t l r hb hl
      by_contra hnl
      obtain ⟨hroot, hrg⟩ := dep t l r hb
      have o := h.out _ _ _ hb
      have hp := par_lt g hroot o.2.2 o.2.1
      have hl0 := hp.2 hnl
      obtain ⟨t', l', r', hb', h1, h2⟩ := h.cover (l-1) (by omega)
      have e : t' ≠ t := by rintro rfl; rw [hb] at hb'; simp at hb'; omega
      have hr' : r' = l - 1 := by
        rcases h.disj _ _ _ _ _ _ e hb' hb with h | h <;> omega
      have hl' := ih l' (by omega) (by omega) t' l' r' hb' rfl
      have hrg' := (dep t' l' r' hb').2
      rw [par, if_pos hl', far, if_pos hl', hr'] at hrg'
      rw [par, if_neg hnl, far, if_neg hnl, hrg'] at hrg
      simp at hrg
      omega
  obtain ⟨t, l, r, hb, h1, h2⟩ := h.cover P.m le_rfl
  have o := h.out _ _ _ hb
  have := isLeft_lt g (right l (by omega) t l r hb rfl)
  omega

end ArborX.Construction
