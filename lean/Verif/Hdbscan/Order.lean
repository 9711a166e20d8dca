import Verif.Hdbscan.Final
import Verif.Perm.Theorems

/-!
# The order of the edges in the output and their parents (lemmas)
-/

namespace ArborX.Hdbscan

open Function (update)
open Boruvka
open Mst (DirectedEdge WeightedEdge)
open Perm (IsPerm IsOrder IsSort)

lemma collect_spec {β : Type} {f : ℕ → Outcome β} {d : β} {g : ℕ → β} :
    ∀ m, (∀ e < m, f e = .ok (g e)) → ∃ G, collect f d m = .ok G ∧ ∀ e < m, G e = g e := by
  intro m
  induction m with
  | zero => intro _; exact ⟨_, rfl, fun e he => by omega⟩
  | succ m ih =>
    intro h
    obtain ⟨G, h1, h2⟩ := ih (fun e he => h e (by omega))
    refine ⟨update G m (g m), ?_, fun e he => ?_⟩
    · unfold collect
      rw [h1]
      simp only [Outcome.bind]
      rw [h m (by omega)]
    · by_cases hem : e = m
      · subst hem; rw [Function.update_self]
      · rw [Function.update_of_ne hem]; exact h2 e (by omega)

lemma isPerm_of_inj {m : ℕ} {p : ℕ → ℕ} (h1 : ∀ x < m, p x < m) (h2 : ∀ x < m, ∀ y < m, p x = p y → x = y) :
    IsPerm m p := by
  unfold IsPerm
  refine List.Subperm.perm_of_length_le (List.Nodup.subperm ?_ ?_) ?_
  · refine List.Nodup.map_on ?_ List.nodup_range
    intro x hx y hy e
    exact h2 x (List.mem_range.mp hx) y (List.mem_range.mp hy) e
  · intro y hy
    obtain ⟨x, hx, rfl⟩ := List.mem_map.mp hy
    exact List.mem_range.mpr (h1 x (List.mem_range.mp hx))
  · rw [List.length_map]

section Fix

variable {W : Type} [LinearOrder W] [BoundedOrder W] {E : List (WeightedEdge W)} {κ : Type} [LinearOrder κ] {key : ℕ → κ}

lemma leastFrom_spec (hlt : ∀ e < E.length, ∀ f < E.length, (edgeAt E e).lt (edgeAt E f) = true ↔ key e < key f)
    {keys : ℕ → ℤ} {perm : ℕ → ℕ} (hp : ∀ x < E.length, perm x < E.length) {q : ℤ} :
    ∀ fuel k b, k + fuel ≤ E.length → b < E.length → b < k → keys b = q →
      ∃ r < E.length, leastFrom E keys perm q fuel k b = some r ∧ b ≤ r ∧ keys r = q ∧ key (perm r) ≤ key (perm b) ∧
        ∀ i, k ≤ i → i < k + fuel → (∀ x, k ≤ x → x ≤ i → keys x = q) → key (perm r) ≤ key (perm i) := by
  intro fuel
  induction fuel with
  | zero =>
    intro k b hk hb hbk hq
    exact ⟨b, hb, rfl, le_rfl, hq, le_rfl, fun i h1 h2 => by omega⟩
  | succ fuel ih =>
    intro k b hk hb hbk hq
    unfold leastFrom
    by_cases hkq : keys k = q
    · rw [if_pos hkq, edgeAt_get (hp k (by omega)), edgeAt_get (hp b hb)]
      dsimp only
      have hiff := hlt (perm k) (hp k (by omega)) (perm b) (hp b hb)
      have hstep : ∀ b', b ≤ b' → b' ≤ k → keys b' = q → key (perm b') ≤ key (perm b) → key (perm b') ≤ key (perm k) →
          ∃ r < E.length, leastFrom E keys perm q fuel (k + 1) b' = some r ∧ b ≤ r ∧ keys r = q ∧ key (perm r) ≤ key (perm b) ∧
            ∀ i, k ≤ i → i < k + (fuel + 1) → (∀ x, k ≤ x → x ≤ i → keys x = q) → key (perm r) ≤ key (perm i) := by
        intro b' h1 h2 h3 h4 h5
        obtain ⟨r, r1, r2, r3, r4, r5, r6⟩ := ih (k + 1) b' (by omega) (by omega) (by omega) h3
        refine ⟨r, r1, r2, by omega, r4, r5.trans h4, fun i hi hi' hall => ?_⟩
        rcases Nat.lt_or_ge k i with hki | hki
        · exact r6 i hki (by omega) (fun x hx hx' => hall x (by omega) hx')
        · obtain rfl : i = k := by omega
          exact r5.trans h5
      by_cases hl : (edgeAt E (perm k)).lt (edgeAt E (perm b)) = true
      · rw [if_pos hl]
        exact hstep k (by omega) le_rfl hkq (hiff.mp hl).le le_rfl
      · rw [if_neg hl]
        exact hstep b le_rfl (by omega) hq le_rfl (not_lt.mp (fun h => hl (hiff.mpr h)))
    · rw [if_neg hkq]
      exact ⟨b, hb, rfl, le_rfl, hq, le_rfl, fun i h1 h2 hall => absurd (hall k le_rfl h1) hkq⟩

/-- The place `i` starts a chain. -/
def Start (keys : ℕ → ℤ) (i : ℕ) : Prop := i = 0 ∨ keys (i - 1) / 2 ^ 32 ≠ keys i / 2 ^ 32

/-- `fix_same_weight_order`. -/
lemma fixOrder_spec (hlt : ∀ e < E.length, ∀ f < E.length, (edgeAt E e).lt (edgeAt E f) = true ↔ key e < key f)
    {keys raw : ℕ → ℤ} (hsorted : ∀ x y, x ≤ y → y < E.length → keys x ≤ keys y) {perm : ℕ → ℕ}
    (hperm : IsPerm E.length perm) (hraw : ∀ x < E.length, keys x = raw (perm x)) {ord : List ℕ}
    (ho : ord.Perm (List.range (E.length - 1))) :
    ∃ τ, fixOrder E keys perm ord = some τ ∧ IsPerm E.length τ ∧ (∀ x < E.length, keys x = raw (τ x)) ∧
      ∀ x < E.length, Start keys x → ∀ f < E.length, raw f = keys x → key (τ x) ≤ key f := by
  set m := E.length with hm
  have after : ∀ i < m, Start keys i → ∀ x < m, keys x = keys i → i ≤ x := by
    intro i hi hs x hx e
    by_contra hlt'
    rcases hs with hs | hs
    · omega
    · have h1 := hsorted x (i - 1) (by omega) (by omega)
      have h2 := hsorted (i - 1) i (by omega) hi
      have : keys (i - 1) = keys i := by omega
      exact hs (by rw [this])
  have main : ∀ (l done : List ℕ) (perm : ℕ → ℕ), (∀ i ∈ l, i < m - 1) → IsPerm m perm →
      (∀ x < m, keys x = raw (perm x)) →
      (∀ x ∈ done, Start keys x → ∀ f < m, raw f = keys x → key (perm x) ≤ key f) → (∀ i ∈ done, i < m - 1) →
      ∃ τ, l.foldl (fun o i => o.bind (fun perm => fixStep E keys perm i)) (some perm) = some τ ∧ IsPerm m τ ∧
        (∀ x < m, keys x = raw (τ x)) ∧
        ∀ x, x ∈ done ∨ x ∈ l → Start keys x → ∀ f < m, raw f = keys x → key (τ x) ≤ key f := by
    intro l
    induction l with
    | nil =>
      intro done perm _ hp hr hd _
      exact ⟨perm, rfl, hp, hr, fun x hx => hd x (by simpa using hx)⟩
    | cons i l ih =>
      intro done perm hl hp hr hd hdl
      have hi : i < m - 1 := hl i List.mem_cons_self
      rw [List.foldl_cons, Option.bind_some]
      have hgoal : ∀ perm', fixStep E keys perm i = some perm' → IsPerm m perm' → (∀ x < m, keys x = raw (perm' x)) →
          (∀ x ∈ i :: done, Start keys x → ∀ f < m, raw f = keys x → key (perm' x) ≤ key f) →
          ∃ τ, l.foldl (fun o i => o.bind (fun perm => fixStep E keys perm i)) (fixStep E keys perm i) = some τ ∧ IsPerm m τ ∧
            (∀ x < m, keys x = raw (τ x)) ∧
            ∀ x, x ∈ done ∨ x ∈ i :: l → Start keys x → ∀ f < m, raw f = keys x → key (τ x) ≤ key f := by
        intro perm' e h1 h2 h3
        rw [e]
        obtain ⟨τ, t1, t2, t3, t4⟩ := ih (i :: done) perm' (fun j hj => hl j (List.mem_cons_of_mem _ hj)) h1 h2 h3
          (by
            intro j hj
            rcases List.mem_cons.mp hj with rfl | hj
            · exact hi
            · exact hdl j hj)
        refine ⟨τ, t1, t2, t3, fun x hx => t4 x ?_⟩
        rcases hx with hx | hx
        · exact .inl (List.mem_cons_of_mem _ hx)
        · rcases List.mem_cons.mp hx with rfl | hx
          · exact .inl List.mem_cons_self
          · exact .inr hx
      by_cases hs : Start keys i
      · obtain ⟨r, r1, r2, r3, r4, r5, r6⟩ := leastFrom_spec (keys := keys) hlt (perm := perm) (fun x hx => hp.lt hx) (q := keys i)
          (m - (i + 1)) (i + 1) i (by omega) (by omega) (by omega) rfl
        have hleast : ∀ f < m, raw f = keys i → key (perm r) ≤ key f := by
          intro f hf hfe
          obtain ⟨x, hx, rfl⟩ := hp.surj hf
          rw [← hr x hx] at hfe
          have hix := after i (by omega) hs x hx hfe
          rcases Nat.lt_or_ge i x with hlt' | hge
          · refine r6 x hlt' (by omega) (fun y hy hy' => ?_)
            have h1 := hsorted i y (by omega) (by omega)
            have h2 := hsorted y x hy' hx
            omega
          · obtain rfl : x = i := by omega
            exact r5
        by_cases hri : r = i
        · subst hri
          refine hgoal perm ?_ hp hr ?_
          · unfold fixStep
            rw [if_pos (show r = 0 ∨ keys (r - 1) / 2 ^ 32 ≠ keys r / 2 ^ 32 from hs), ← hm, r2]
            dsimp only
            rw [if_neg (by simp)]
          · intro x hx
            rcases List.mem_cons.mp hx with rfl | hx
            · exact fun _ => hleast
            · exact hd x hx
        · refine hgoal (update (update perm i (perm r)) r (perm i)) ?_ ?_ ?_ ?_
          · unfold fixStep
            rw [if_pos (show i = 0 ∨ keys (i - 1) / 2 ^ 32 ≠ keys i / 2 ^ 32 from hs), ← hm, r2]
            dsimp only
            rw [if_pos hri]
          · have hval : ∀ x, update (update perm i (perm r)) r (perm i) x = perm (if x = r then i else if x = i then r else x) := by
              intro x
              by_cases h1 : x = r
              · subst h1; rw [Function.update_self, if_pos rfl]
              · rw [Function.update_of_ne h1, if_neg h1]
                by_cases h2 : x = i
                · subst h2; rw [Function.update_self, if_pos rfl]
                · rw [Function.update_of_ne h2, if_neg h2]
            refine isPerm_of_inj (fun x hx => ?_) (fun x hx y hy e => ?_)
            · rw [hval]
              refine hp.lt ?_
              split_ifs <;> omega
            · rw [hval, hval] at e
              have := hp.inj (by split_ifs <;> omega) (by split_ifs <;> omega) e
              split_ifs at this <;> omega
          · intro x hx
            by_cases h1 : x = r
            · subst h1; rw [Function.update_self, r4]; exact hr i (by omega)
            · rw [Function.update_of_ne h1]
              by_cases h2 : x = i
              · subst h2; rw [Function.update_self, ← r4]; exact hr r r1
              · rw [Function.update_of_ne h2]; exact hr x hx
          · intro x hx hsx
            by_cases h1 : x = r
            · subst h1
              have := after x r1 hsx i (by omega) r4.symm
              omega
            · rw [Function.update_of_ne h1]
              by_cases h2 : x = i
              · subst h2; rw [Function.update_self]; exact hleast
              · rw [Function.update_of_ne h2]
                exact hd x ((List.mem_cons.mp hx).resolve_left h2) hsx
      · refine hgoal perm ?_ hp hr ?_
        · unfold fixStep
          rw [if_neg (show ¬ (i = 0 ∨ keys (i - 1) / 2 ^ 32 ≠ keys i / 2 ^ 32) from hs)]
        · intro x hx hsx
          rcases List.mem_cons.mp hx with rfl | hx
          · exact absurd hsx hs
          · exact hd x hx hsx
  obtain ⟨τ, t1, t2, t3, t4⟩ := main ord [] perm (fun i hi => List.mem_range.mp (ho.subset hi)) hperm hraw
    (by simp) (by simp)
  refine ⟨τ, t1, t2, t3, fun x hx hs f hf hfe => ?_⟩
  by_cases hxm : x < m - 1
  · exact t4 x (.inr (ho.symm.subset (List.mem_range.mpr hxm))) hs f hf hfe
  · obtain ⟨y, hy, rfl⟩ := t2.surj hf
    rw [← t3 y hy] at hfe
    have := after x hx hs y hy hfe
    obtain rfl : y = x := by omega
    exact le_rfl

end Fix

section Reorder

variable {V W : Type} [LinearOrder W] [BoundedOrder W]
variable {P : Points V W} {value : ℕ → ℕ} {n : ℕ}
variable {E : List (WeightedEdge W)} {L : ℕ} {off : ℕ → ℕ} {lab α : ℕ → ℕ → ℕ}

/-- What is assumed about the library and the scheduler. -/
structure Reorder.Valid (m : ℕ) (ro : Reorder W) : Prop where
  sort : ∀ keys, IsSort m keys (ro.sort m keys)
  sortW : ∀ keys, IsSort m keys (ro.sortW m keys)
  fix : ro.fix.Perm (List.range (m - 1))
  inv : ro.inv.Perm (List.range m)
  perm : ro.perm.Perm (List.range m)

lemma shr (c : ℤ) {b : ℕ} (hb : b < 2 ^ 31) : (c * 2 ^ 32 + (b : ℤ)) / 2 ^ 32 = c := by omega

/-- `computeParentsAndReorderEdges`. -/
lemma reorder_spec (H : Levels n E.length (srcAt E) (tgtAt E) (keyAt P value E) L off lab α) (hn : n = E.length + 1)
    (hE : 0 < E.length) (hbig : n ≤ 2 ^ 30) (hL : 0 < L)
    (hw : ∀ e < E.length, (edgeAt E e).weight = P.weight (value (srcAt E e)) (value (tgtAt E e)))
    {bits : W → ℕ} (hbits : ∀ e < E.length, bits (edgeAt E e).weight < 2 ^ 31)
    (hmono : ∀ e < E.length, ∀ f < E.length, (edgeAt E e).weight < (edgeAt E f).weight →
      bits (edgeAt E e).weight < bits (edgeAt E f).weight)
    {fs : ℕ → Option ℤ} (hfs : ∀ j, j + 1 < L → ∀ e, off j ≤ e → e < off (j + 1) → fs e = some (sidedVal P value lab α E j e))
    (hroot : ∀ e, off (L - 1) ≤ e → e < off L → fs e = some (-2)) {fuel : ℕ} (hfuel : L ≤ fuel)
    (hvert : IsPerm n value) {par : ℕ → Option ℤ} (hpar : ∀ v < n, par (value v + (n - 1)) = some (α 0 v : ℤ))
    {ro : Reorder W} (hro : ro.Valid E.length) :
    ∃ τ rev cid par', reorder bits E fs par fuel ro = .ok ((List.range E.length).map (fun x => edgeAt E (τ x)), par') ∧
      IsPerm E.length τ ∧ Laid H (fun e => (edgeAt E e).weight) cid τ rev value par' := by
  classical
  set m := E.length with hm
  have hmb : m < 2 ^ 30 := by omega
  -- the keys
  have hck := fun e (he : e < E.length) => chainKey_spec H hw hfs hroot hfuel he
  let cid : ℕ → ℤ := fun e => if h : ∃ k, Top (srcAt E) (keyAt P value E) L off lab α e k then
    cidVal (srcAt E) L lab α h.choose e else 0
  have hcid : ∀ e k, Top (srcAt E) (keyAt P value E) L off lab α e k → cid e = cidVal (srcAt E) L lab α k e := by
    intro e k hk
    have h : ∃ k, Top (srcAt E) (keyAt P value E) L off lab α e k := ⟨k, hk⟩
    simp only [cid, dif_pos h]
    rw [Levels.top_unique h.choose_spec hk]
  have hchain : ∀ e f k l, Top (srcAt E) (keyAt P value E) L off lab α e k → Top (srcAt E) (keyAt P value E) L off lab α f l →
      (cid e = cid f ↔ k = l ∧ lab k (srcAt E e) = lab k (srcAt E f)) := by
    intro e f k l he hf
    rw [hcid e k he, hcid f l hf]
    exact cid_chain H hmb he hf
  have hmax : ∀ f < m, cid f ≤ 2 ^ 31 - 1 := by
    intro f hf
    obtain ⟨k, hk⟩ := H.top_exists hf
    rw [hcid f k hk]
    unfold cidVal
    split_ifs with hkL
    · exact le_rfl
    · exact (code_lt H hmb hf (lt_of_le_of_ne hk.le hkL)).le
  obtain ⟨raw, hk1, hk2⟩ := collect_spec (f := sortKey bits E fs fuel) (d := 0)
    (g := fun e => cid e * 2 ^ 32 + (bits (edgeAt E e).weight : ℤ)) m (by
      intro e he
      obtain ⟨k, hk, hc⟩ := hck e he
      unfold sortKey
      rw [hc, edgeAt_get he, hcid e k hk]
      rfl)
  obtain ⟨s1, s2, s3⟩ := Perm.sortObjects_correct m raw (ro.sort m raw) (hro.sort raw)
  have hlt : ∀ e < E.length, ∀ f < E.length,
      (edgeAt E e).lt (edgeAt E f) = true ↔ keyAt P value E e < keyAt P value E f :=
    fun e he f hf => lt_iff (P := P) (value := value) (hw e he) (hw f hf)
  obtain ⟨τ, t1, t2, t3, t4⟩ := fixOrder_spec hlt s3 s1 s2 hro.fix
  set keys := (Perm.sortObjects m raw (ro.sort m raw)).1 with hkeys
  have hkx : ∀ x < m, keys x = cid (τ x) * 2 ^ 32 + (bits (edgeAt E (τ x)).weight : ℤ) := by
    intro x hx
    rw [t3 x hx, hk2 _ (t2.lt hx)]
  have hks : ∀ x < m, keys x / 2 ^ 32 = cid (τ x) := by
    intro x hx
    rw [hkx x hx]
    exact shr _ (hbits _ (t2.lt hx))
  obtain ⟨rev, v1, v2⟩ := Perm.applyInversePermutation_correct m τ t2 (fun i => i) (fun _ => 0) ro.inv hro.inv
  obtain ⟨es, e1, e2⟩ := Perm.applyPermutationInPlace_correct m τ t2 (fun i => E[i]?) ro.perm hro.perm
  have hrev : ∀ e < m, rev e < m ∧ τ (rev e) = e := by
    intro e he
    obtain ⟨x, hx, rfl⟩ := t2.surj he
    rw [v2 x hx]
    exact ⟨hx, rfl⟩
  have hsorted : ∀ x y, x ≤ y → y < m → cid (τ x) ≤ cid (τ y) := by
    intro x y hxy hy
    rw [← hks x (by omega), ← hks y hy]
    have := s3 x y hxy hy
    omega
  have hsortedw : ∀ x y, x ≤ y → y < m → cid (τ x) = cid (τ y) →
      bits (edgeAt E (τ x)).weight ≤ bits (edgeAt E (τ y)).weight := by
    intro x y hxy hy hc
    have := s3 x y hxy hy
    change keys x ≤ keys y at this
    rw [hkx x (by omega), hkx y hy, hc] at this
    omega
  have hroot' : ∀ e, Top (srcAt E) (keyAt P value E) L off lab α e L → cid e = 2 ^ 31 - 1 := by
    intro e he
    rw [hcid e L he]
    unfold cidVal
    rw [if_pos rfl]
  -- the parent of an edge at the end of a chain
  have halpha : ∀ x, x + 1 < m → cid (τ x) ≠ cid (τ (x + 1)) → ∀ k, Top (srcAt E) (keyAt P value E) L off lab α (τ x) k →
      k < L ∧ newParent m keys rev par x = some ((rev (α k (lab k (srcAt E (τ x)))) : ℕ) : ℤ) := by
    intro x hx hne k hk
    have hkL : k < L := by
      refine lt_of_le_of_ne hk.le (fun e => hne ?_)
      subst e
      have h1 := hsorted x (x + 1) (by omega) hx
      have h2 := hmax _ (t2.lt hx)
      rw [hroot' _ hk] at h1 ⊢
      omega
    refine ⟨hkL, ?_⟩
    have hc : keys x / 2 ^ 32 = code (srcAt E) lab α k (τ x) := by
      rw [hks x (by omega), hcid _ k hk]
      unfold cidVal
      rw [if_neg (by omega)]
    unfold newParent
    rw [if_pos (by omega), if_neg (by omega), if_neg (by rw [hks x (by omega), hks (x + 1) hx]; exact hne), hc, code_half,
      if_pos (H.alpha_lt hkL (H.range _ (t2.lt (by omega))).1)]
  have hnext : ∀ x, x + 1 < m → cid (τ x) = cid (τ (x + 1)) → newParent m keys rev par x = some ((x + 1 : ℕ) : ℤ) := by
    intro x hx he
    unfold newParent
    rw [if_pos (by omega), if_neg (by omega), if_pos (by rw [hks x (by omega), hks (x + 1) hx]; exact he)]
  have hlast : newParent m keys rev par (m - 1) = some (-1) := by
    unfold newParent
    rw [if_pos (by omega), if_pos rfl]
  have hvertex : ∀ v < n, newParent m keys rev par (m + value v) = some ((rev (α 0 v) : ℕ) : ℤ) := by
    intro v hv
    have hα : α 0 v < m := by
      have := H.alpha_lt hL hv
      rwa [H.lab_zero v hv] at this
    unfold newParent
    have : m + value v = value v + (n - 1) := by omega
    rw [if_neg (by omega), this, hpar v hv]
    dsimp only
    rw [if_pos ⟨by omega, by omega⟩]
    rfl
  have hall : (List.range (2 * m + 1)).all (fun i => (newParent m keys rev par i).isSome) = true := by
    rw [List.all_eq_true]
    intro i hi
    rw [List.mem_range] at hi
    by_cases him : i < m
    · by_cases hi1 : i = m - 1
      · rw [hi1, hlast]; rfl
      · by_cases hc : cid (τ i) = cid (τ (i + 1))
        · rw [hnext i (by omega) hc]; rfl
        · obtain ⟨k, hk⟩ := H.top_exists (t2.lt him)
          rw [(halpha i (by omega) hc k hk).2]; rfl
    · obtain ⟨v, hv, e⟩ := hvert.surj (show i - m < n by omega)
      have : i = m + value v := by omega
      rw [this, hvertex v hv]; rfl
  refine ⟨τ, rev, cid, newParent m keys rev par, ?_, t2, ?_⟩
  · unfold reorder
    dsimp only
    rw [← hm, hk1]
    simp only [Outcome.bind]
    rw [t1]
    dsimp only
    rw [v1]
    dsimp only
    rw [if_pos hall, e1]
    dsimp only
    congr 2
    rw [List.filterMap_map]
    rw [← List.filterMap_eq_map]
    refine List.filterMap_congr (fun x hx => ?_)
    rw [List.mem_range] at hx
    simp only [Function.comp, id]
    rw [e2 x hx, edgeAt_get (t2.lt hx)]
  · refine ⟨hn, hE, ?_, ?_, hrev, hvert, hchain, hsorted, ?_, ?_, ?_, hnext, ?_, hlast, hvertex⟩
    · intro e he f hf hk
      rw [hw e he, hw f hf]
      exact ekey_weight hk
    · intro x hx
      exact ⟨t2.lt hx, v2 x hx⟩
    · intro x y hxy hy hc
      by_contra hlt'
      have h1 := hmono _ (t2.lt hy) _ (t2.lt (show x < m by omega)) (not_le.mp hlt')
      have h2 := hsortedw x y hxy hy hc
      omega
    · intro x hx hs f hf hc hne
      obtain ⟨y, hy, rfl⟩ := t2.surj hf
      have hst : Start keys x := by
        rcases hs with hs | hs
        · exact .inl hs
        · by_cases hx0 : x = 0
          · exact .inl hx0
          · refine .inr ?_
            rw [hks (x - 1) (by omega), hks x hx]
            exact hs
      have hxy : x ≤ y := by
        by_contra hxy
        rcases hs with hs | hs
        · omega
        · have h1 := hsorted y (x - 1) (by omega) (by omega)
          have h2 := hsorted (x - 1) x (by omega) hx
          omega
      have hb := hsortedw x y hxy hy hc.symm
      rcases Nat.lt_or_ge (bits (edgeAt E (τ x)).weight) (bits (edgeAt E (τ y)).weight) with hlt' | hge
      · have hwlt : (edgeAt E (τ x)).weight < (edgeAt E (τ y)).weight := by
          by_contra hno
          rcases eq_or_lt_of_le (not_lt.mp hno) with he | he
          · rw [he] at hlt'; omega
          · have := hmono _ (t2.lt hy) _ (t2.lt hx) he; omega
        by_contra hno
        have := ekey_weight (not_lt.mp hno)
        change P.weight (value (srcAt E (τ y))) (value (tgtAt E (τ y))) ≤ P.weight (value (srcAt E (τ x))) (value (tgtAt E (τ x))) at this
        rw [← hw _ (t2.lt hx), ← hw _ (t2.lt hy)] at this
        exact absurd hwlt (not_lt.mpr this)
      · have hraw : raw (τ y) = keys x := by
          rw [hk2 _ (t2.lt hy), hkx x hx, hc]
          omega
        refine lt_of_le_of_ne (t4 x hx hst _ (t2.lt hy) hraw) (fun e => hne ?_)
        exact (H.inj _ (t2.lt hx) _ (t2.lt hy) e).symm
    · intro e he f hf
      rw [hroot' e he]
      exact hmax f hf
    · intro x hx hne k hkL hk
      exact (halpha x hx hne k hk).2

end Reorder

end ArborX.Hdbscan
