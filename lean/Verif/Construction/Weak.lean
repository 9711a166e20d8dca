import Verif.Construction.WeakModel

/-!
# The construction kernel on a machine with weak memory (C78)
-/

namespace ArborX.Construction

open Function (update)

variable {α V : Type} [SemilatticeSup V] [OrderBot V] {P : Params α V}

/-- The left child of the split `p` whose range starts at `l`. -/
def sibL (p l : ℕ) : Loc := if p == l then .leaf p else .internal p
/-- The right child of the split `p` whose range ends at `r`. -/
def sibR (p r : ℕ) : Loc := if p + 1 == r then .leaf (p + 1) else .internal (p + 1)

/-- What a thread sees. -/
def Sees (w : WState α V) (t : ℕ) : Prop :=
  match w.base.thr t with
  | .loop _ l r dl dr _ => w.view t (if l = r then .leaf l else .internal (if dr < dl then r else l)) = true
  | .readR _ _ r _ _ p => w.view t (sibR p r) = true
  | .readL l _ _ _ p => w.view t (sibL p l) = true
  | _ => True

structure WInv (w : WState α V) : Prop where
  sees : ∀ t, Sees w t
  msg : ∀ p x, w.base.ranges p = some x → (x ≤ p → w.msg p (sibL p x) = true) ∧ (p < x → w.msg p (sibR p x) = true)

lemma winv_init : WInv (initW : WState α V) := ⟨fun _ => trivial, fun p x h => by simp [initW, initState] at h⟩

lemma sees_other {w w' : WState α V} {t u : ℕ} (hu : u ≠ t) (hthr : w'.base.thr u = w.base.thr u) (hview : w'.view u = w.view u) (h : Sees w u) : Sees w' u := by
  unfold Sees at *
  rw [hthr, hview]
  exact h

variable (g : Good P)
include g

theorem weak_step {w : WState α V} {blk} (hI : Inv P w.base blk) (hW : WInv w) (tg : ℕ × Option V) :
    (stepW ⟨true, true⟩ P w tg).base = step P w.base tg.1 ∧ WInv (stepW ⟨true, true⟩ P w tg) := by
  obtain ⟨t, gb⟩ := tg
  unfold stepW
  dsimp only
  by_cases ht : t > P.m
  · rw [if_pos ht, step, if_pos ht]
    exact ⟨rfl, hW⟩
  rw [if_neg ht]
  have hS := hW.sees t
  have hT := hI.thr t (by omega)
  unfold Sees at hS
  unfold ThrInv at hT
  cases hth : w.base.thr t with
  | init =>
    refine ⟨rfl, ?_, ?_⟩
    · intro u
      by_cases hu : u = t
      · subst hu
        unfold Sees
        simp [step, ht, hth, addView]
      · exact sees_other hu (by simp [step, ht, hth, hu]) (by simp [addView, hu]) (hW.sees u)
    · intro p x hx
      simp only [step, if_neg ht, hth] at hx
      exact hW.msg p x hx
  | loop i l r dl dr bv =>
    rw [hth] at hS hT
    dsimp only at hS hT ⊢
    obtain ⟨hb, -, hdl, hdr, hroot, -⟩ := hT
    have ho := hI.out t l r hb
    have hpl := par_lt g hroot ho.2.2 ho.2.1
    unfold casW
    by_cases hlr : dr < dl
    · have hleft : isLeft P l r := by unfold isLeft; rw [← hdl, ← hdr]; exact hlr
      have hr : r < P.m := by have := hpl.1; rwa [par, if_pos hleft] at this
      rw [if_pos hlr] at hS ⊢
      cases hx : w.base.ranges r with
      | none =>
        dsimp only
        refine ⟨rfl, ?_, ?_⟩
        · intro u
          by_cases hu : u = t
          · subst hu
            unfold Sees
            simp [step, ht, hth, hlr, hr, hx]
          · exact sees_other (w := w) hu (by simp [step, ht, hth, hlr, hr, hx, hu]) rfl (hW.sees u)
        · intro p x hx'
          simp only [step, if_neg ht, hth, if_pos hlr, if_pos hr, hx] at hx'
          by_cases hp : p = r
          · subst hp
            simp only [Function.update_self, Option.some_inj] at hx'
            subst hx'
            refine ⟨fun _ => ?_, fun h => absurd h (by omega)⟩
            simp only [Function.update_self, Bool.true_and]
            have e : sibL p l = (if l = p then .leaf l else .internal p) := by
              unfold sibL
              by_cases h : l = p
              · simp [h]
              · have : ¬ p = l := fun h' => h h'.symm
                simp [h, this]
            rw [e]
            exact hS
          · simp only [Function.update_of_ne hp] at hx' ⊢
            exact hW.msg p x hx'
      | some x =>
        obtain ⟨t', -, -, hb', -, -⟩ := hI.sibling_left g (by rw [hth]; simp) hb hx
        have ho' := hI.out _ _ _ hb'
        refine ⟨rfl, ?_, ?_⟩
        · intro u
          by_cases hu : u = t
          · subst hu
            unfold Sees
            simp only [step, if_neg ht, hth, if_pos hlr, if_pos hr, hx, setThr, Function.update_self]
            rw [(hW.msg r x hx).2 (by omega)]
            simp
          · exact sees_other hu (by simp [step, ht, hth, hlr, hr, hx, hu, setThr]) (by simp [hu]) (hW.sees u)
        · intro p y hy
          simp only [step, if_neg ht, hth, if_pos hlr, if_pos hr, hx, setThr] at hy
          exact hW.msg p y hy
    · have hleft : ¬ isLeft P l r := by unfold isLeft; rw [← hdl, ← hdr]; exact hlr
      have hl0 := hpl.2 hleft
      have hr : l - 1 < P.m := by have := hpl.1; rwa [par, if_neg hleft] at this
      have hcond : 0 < l ∧ l - 1 < P.m := ⟨hl0, hr⟩
      rw [if_neg hlr] at hS ⊢
      cases hx : w.base.ranges (l - 1) with
      | none =>
        dsimp only
        refine ⟨rfl, ?_, ?_⟩
        · intro u
          by_cases hu : u = t
          · subst hu
            unfold Sees
            simp [step, ht, hth, hlr, hcond, hx]
          · exact sees_other (w := w) hu (by simp [step, ht, hth, hlr, hcond, hx, hu]) rfl (hW.sees u)
        · intro p x hx'
          simp only [step, if_neg ht, hth, if_neg hlr, if_pos hcond, hx] at hx'
          by_cases hp : p = l - 1
          · subst hp
            simp only [Function.update_self, Option.some_inj] at hx'
            subst hx'
            refine ⟨fun h => absurd h (by omega), fun _ => ?_⟩
            simp only [Function.update_self, Bool.true_and]
            have e : sibR (l - 1) r = (if l = r then .leaf l else .internal l) := by
              unfold sibR
              rw [Nat.sub_add_cancel hl0]
              by_cases h : l = r <;> simp [h]
            rw [e]
            exact hS
          · simp only [Function.update_of_ne hp] at hx' ⊢
            exact hW.msg p x hx'
      | some x =>
        obtain ⟨t', -, -, hb', -, -⟩ := hI.sibling_right g (by rw [hth]; simp) hb hl0 hx
        have ho' := hI.out _ _ _ hb'
        refine ⟨rfl, ?_, ?_⟩
        · intro u
          by_cases hu : u = t
          · subst hu
            unfold Sees
            simp only [step, if_neg ht, hth, if_neg hlr, if_pos hcond, hx, setThr, Function.update_self]
            rw [(hW.msg (l - 1) x hx).1 (by omega)]
            simp
          · exact sees_other hu (by simp [step, ht, hth, hlr, hcond, hx, hu, setThr]) (by simp [hu]) (hW.sees u)
        · intro p y hy
          simp only [step, if_neg ht, hth, if_neg hlr, if_pos hcond, hx, setThr] at hy
          exact hW.msg p y hy
  | readR i l r dl bv p =>
    rw [hth] at hS
    dsimp only at hS ⊢
    have e : readW P w t gb (p + 1 == r) (p + 1) = readVol P w.base (p + 1 == r) (p + 1) := by
      unfold readW
      exact if_pos hS
    have e2 : afterRead w.base t (readVol P w.base (p + 1 == r) (p + 1)) (fun v => .write l r dl (delta P r) (bv ⊔ v) i) = step P w.base t := by
      simp only [step, if_neg ht, hth, afterRead]
      cases readVol P w.base (p + 1 == r) (p + 1) <;> rfl
    rw [e, e2]
    refine ⟨rfl, ?_, ?_⟩
    · intro u
      by_cases hu : u = t
      · subst hu
        unfold Sees
        simp only [step, if_neg ht, hth]
        cases readVol P w.base (p + 1 == r) (p + 1) <;> simp [setThr]
      · refine sees_other (w := w) hu ?_ rfl (hW.sees u)
        simp only [step, if_neg ht, hth]
        cases readVol P w.base (p + 1 == r) (p + 1) <;> simp [setThr, hu]
    · intro q x hx
      refine hW.msg q x ?_
      simp only [step, if_neg ht, hth] at hx
      revert hx
      cases readVol P w.base (p + 1 == r) (p + 1) <;> exact id
  | readL l r dr bv p =>
    rw [hth] at hS
    dsimp only at hS ⊢
    have e : readW P w t gb (p == l) p = readVol P w.base (p == l) p := by
      unfold readW
      exact if_pos hS
    have e2 : afterRead w.base t (readVol P w.base (p == l) p) (fun v => .write l r (delta P ((l : ℤ) - 1)) dr (bv ⊔ v) (if p == l then p else internalIndex P p)) = step P w.base t := by
      simp only [step, if_neg ht, hth, afterRead]
      cases readVol P w.base (p == l) p <;> rfl
    rw [e, e2]
    refine ⟨rfl, ?_, ?_⟩
    · intro u
      by_cases hu : u = t
      · subst hu
        unfold Sees
        simp only [step, if_neg ht, hth]
        cases readVol P w.base (p == l) p <;> simp [setThr]
      · refine sees_other (w := w) hu ?_ rfl (hW.sees u)
        simp only [step, if_neg ht, hth]
        cases readVol P w.base (p == l) p <;> simp [setThr, hu]
    · intro q x hx
      refine hW.msg q x ?_
      simp only [step, if_neg ht, hth] at hx
      revert hx
      cases readVol P w.base (p == l) p <;> exact id
  | write l r dl dr bv left =>
    rw [hth] at hT
    dsimp only at hT ⊢
    obtain ⟨-, hdl, hdr, p, -, -, -, x, y, hx, hy, -⟩ := hT
    have := hx.le
    have := hy.le
    have hne : ¬ l = r := by omega
    refine ⟨rfl, ?_, ?_⟩
    · intro u
      by_cases hu : u = t
      · subst hu
        unfold Sees
        simp only [step, if_neg ht, hth]
        by_cases hk : (if dr < dl then r else l) < P.m
        · rw [if_pos hk]
          dsimp only
          rw [Function.update_self]
          by_cases hr : internalIndex P (if dr < dl then r else l) ≠ internalIndex P 0
          · rw [if_pos hr]
            simp [addView, hne]
          · rw [if_neg hr]; trivial
        · rw [if_neg hk]; simp [setThr]
      · refine sees_other hu ?_ (by simp [addView, hu]) (hW.sees u)
        simp only [step, if_neg ht, hth]
        split_ifs <;> simp [setThr, hu]
    · intro q x hx
      refine hW.msg q x ?_
      simp only [step, if_neg ht, hth] at hx
      revert hx
      split_ifs <;> exact id
  | done =>
    refine ⟨?_, hW⟩
    simp [step, ht, hth]
  | fault =>
    refine ⟨?_, hW⟩
    simp [step, ht, hth]

/-- All reads are ordered: the kernel does what it does with strong memory. -/
theorem weak_run (sched : List (ℕ × Option V)) : (runW ⟨true, true⟩ P sched).base = run P (sched.map Prod.fst) := by
  have : ∀ (l : List (ℕ × Option V)) (w : WState α V) blk, Inv P w.base blk → WInv w →
      (l.foldl (stepW ⟨true, true⟩ P) w).base = (l.map Prod.fst).foldl (step P) w.base := by
    intro l
    induction l with
    | nil => intros; rfl
    | cons tg l ih =>
      intro w blk hI hW
      obtain ⟨e, hW'⟩ := weak_step g hI hW tg
      obtain ⟨blk', hI'⟩ := inv_step g hI tg.1
      rw [← e] at hI'
      simp only [List.foldl_cons, List.map_cons]
      rw [ih _ blk' hI' hW', e]
  exact this sched _ _ inv_init winv_init

end ArborX.Construction
