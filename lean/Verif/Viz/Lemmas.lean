import Verif.Viz.Model
import Verif.Nearest.Theorems

/-! # Lemmas on the output of a tree -/

set_option linter.unusedSectionVars false

namespace ArborX.Viz

open BVH Construction

variable {α V β : Type} {w : ℕ} [SemilatticeSup V] {mem : Mem α V} {value : ℕ → α} {vol : α → V}

/-- Number of entries of the stack needed for a tree: the entries are the left siblings of the nodes on the path. -/
def room : BTree → ℕ
  | .leaf _ => 1
  | .node a b => max (room b + 1) (room a)

lemma room_pos (T : BTree) : 1 ≤ room T := by
  cases T <;> simp [room]

lemma room_height (T : BTree) : room T ≤ T.height + 1 := by
  induction T with
  | leaf i => simp [room]
  | node a b iha ihb => simp only [room, BTree.height]; omega

lemma room_leaves (T : BTree) : room T ≤ T.leaves.length := by
  induction T with
  | leaf i => simp [room, BTree.leaves]
  | node a b iha ihb =>
    have h1 := room_pos a
    simp only [room, BTree.leaves, List.length_append]; omega

/-- The nodes in the order of the visit. -/
inductive Visit (mem : Mem α V) (value : ℕ → α) (vol : α → V) : BTree → ℕ → Option ℕ → List ℕ → Prop
  | leaf (i : ℕ) (rope : Option ℕ) : Layout mem value vol (.leaf i) i rope → Visit mem value vol (.leaf i) i rope [i]
  | node (a b : BTree) (id ia ib : ℕ) (rope : Option ℕ) (va vb : List ℕ) : Layout mem value vol (.node a b) id rope →
      Nearest.children mem id = some (ia, ib) → Visit mem value vol a ia (some ib) va → Visit mem value vol b ib rope vb →
      Visit mem value vol (.node a b) id rope (id :: (vb ++ va))

lemma exists_visit (T : BTree) : ∀ {id : ℕ} {rope : Option ℕ}, Layout mem value vol T id rope → ∃ l, Visit mem value vol T id rope l := by
  induction T with
  | leaf i =>
    intro id rope h
    obtain rfl := h.1
    exact ⟨[id], .leaf id rope h⟩
  | node a b iha ihb =>
    intro id rope h
    obtain ⟨ia, ib, hc, ha, hb⟩ := Nearest.layout_children h
    obtain ⟨va, hva⟩ := iha ha
    obtain ⟨vb, hvb⟩ := ihb hb
    exact ⟨_, .node a b id ia ib rope va vb h hc hva hvb⟩

lemma Visit.length {T : BTree} {id : ℕ} {rope : Option ℕ} {l : List ℕ} (h : Visit mem value vol T id rope l) : l.length = T.size := by
  induction h with
  | leaf => rfl
  | node _ _ _ _ _ _ _ _ _ _ _ _ iha ihb =>
    simp only [List.length_cons, List.length_append, iha, ihb, BTree.size]; omega

lemma visitLoop_tree {visit : ℕ → Option (List β)} {out : ℕ → List β} {cap : ℕ} {T : BTree} {id : ℕ} {rope : Option ℕ} {l : List ℕ}
    (h : Visit mem value vol T id rope l) : (∀ j ∈ l, visit j = some (out j)) → ∀ (st : List ℕ) (acc : List β) (fuel : ℕ), st.length + room T ≤ cap →
    visitLoop mem visit cap (fuel + T.size) (id :: st) acc = visitLoop mem visit cap fuel st (acc ++ l.flatMap out) := by
  induction h with
  | leaf i rope hl =>
    intro ho st acc fuel hc
    obtain ⟨-, hlt, -⟩ := hl
    rw [BTree.size, visitLoop, ho i (by simp)]
    simp only
    rw [if_pos hlt]
    simp
  | node a b id ia ib rope va vb hl hch hva hvb iha ihb =>
    intro ho st acc fuel hc
    have hnl : ¬ id < mem.size := by obtain ⟨_, _, h, -⟩ := hl; omega
    simp only [room] at hc
    rw [show fuel + (BTree.node a b).size = (fuel + a.size + b.size) + 1 by simp only [BTree.size]; omega, visitLoop, ho id (by simp)]
    simp only
    rw [if_neg hnl, hch]
    simp only
    have := room_pos b
    rw [if_pos (by omega), ihb (fun j hj => ho j (by simp [hj])) _ _ _ (by simp; omega),
      iha (fun j hj => ho j (by simp [hj])) _ _ _ (by omega)]
    simp [List.flatMap_append]

/-- A path that goes `n` times to the right, where the other child of each node is still to be visited. -/
lemma visitLoop_overflow {visit : ℕ → Option (List β)} {out : ℕ → List β} {cap : ℕ} {T : BTree} {id : ℕ} {rope : Option ℕ} {l : List ℕ}
    (h : Visit mem value vol T id rope l) : (∀ j ∈ l, visit j = some (out j)) → ∀ (st : List ℕ) (acc : List β) (fuel : ℕ),
    st.length + 1 ≤ cap → cap < st.length + room T →
    visitLoop mem visit cap (fuel + T.size) (id :: st) acc = .fault := by
  induction h with
  | leaf i rope hl => intro ho st acc fuel h1 hc; simp only [room] at hc; omega
  | node a b id ia ib rope va vb hl hch hva hvb iha ihb =>
    intro ho st acc fuel h1 hc
    have hnl : ¬ id < mem.size := by obtain ⟨_, _, h, -⟩ := hl; omega
    simp only [room] at hc
    rw [show fuel + (BTree.node a b).size = (fuel + a.size + b.size) + 1 by simp only [BTree.size]; omega, visitLoop, ho id (by simp)]
    simp only
    rw [if_neg hnl, hch]
    simp only
    by_cases h2 : st.length + 2 ≤ cap
    · rw [if_pos h2]
      by_cases h3 : cap < st.length + (room b + 1)
      · exact ihb (fun j hj => ho j (by simp [hj])) _ _ _ (by simp; omega) (by simp; omega)
      · rw [visitLoop_tree hvb (fun j hj => ho j (by simp [hj])) _ _ _ (by simp; omega)]
        exact iha (fun j hj => ho j (by simp [hj])) _ _ _ (by omega) (by omega)
    · rw [if_neg h2]

/-- The memory determines the tree. -/
lemma layout_unique (T : BTree) : ∀ {T' : BTree} {id : ℕ} {rope rope' : Option ℕ}, Layout mem value vol T id rope → Layout mem value vol T' id rope' →
    T = T' := by
  induction T with
  | leaf i =>
    intro T' id rope rope' h h'
    cases T' with
    | leaf j => rw [← h.1, ← h'.1]
    | node a b => obtain ⟨_, _, h2, -⟩ := h'; have := h.1; have := h.2.1; omega
  | node a b iha ihb =>
    intro T' id rope rope' h h'
    cases T' with
    | leaf j => obtain ⟨_, _, h2, -⟩ := h; have := h'.1; have := h'.2.1; omega
    | node a' b' =>
      obtain ⟨ia, ib, hc, ha, hb⟩ := Nearest.layout_children h
      obtain ⟨ia', ib', hc', ha', hb'⟩ := Nearest.layout_children h'
      rw [hc] at hc'
      simp only [Option.some.injEq, Prod.mk.injEq] at hc'
      obtain ⟨rfl, rfl⟩ := hc'
      rw [iha ha ha', ihb hb hb']

lemma Visit.layout {T : BTree} {id : ℕ} {rope : Option ℕ} {l : List ℕ} (h : Visit mem value vol T id rope l) : Layout mem value vol T id rope := by
  cases h <;> assumption

/-- A visited node holds a tree whose leaves are among the leaves of the whole tree. -/
lemma Visit.sub {T : BTree} {id : ℕ} {rope : Option ℕ} {l : List ℕ} (h : Visit mem value vol T id rope l) {j : ℕ} (hj : j ∈ l) :
    ∃ S rope', Layout mem value vol S j rope' ∧ S.leaves.Sublist T.leaves := by
  induction h with
  | leaf i rope hl =>
    rw [List.mem_singleton] at hj
    subst hj
    exact ⟨_, _, hl, List.Sublist.refl _⟩
  | node a b id ia ib rope va vb hl hch hva hvb iha ihb =>
    rw [List.mem_cons, List.mem_append] at hj
    rcases hj with rfl | hj | hj
    · exact ⟨_, _, hl, List.Sublist.refl _⟩
    · obtain ⟨S, r, h1, h2⟩ := ihb hj
      exact ⟨S, r, h1, h2.trans (List.sublist_append_right _ _)⟩
    · obtain ⟨S, r, h1, h2⟩ := iha hj
      exact ⟨S, r, h1, h2.trans (List.sublist_append_left _ _)⟩

lemma leaves_pos (T : BTree) : 1 ≤ T.leaves.length := by
  induction T with
  | leaf i => simp [BTree.leaves]
  | node a b iha ihb => simp only [BTree.leaves, List.length_append]; omega

/-- No node is visited twice. -/
lemma Visit.nodup {T : BTree} {id : ℕ} {rope : Option ℕ} {l : List ℕ} (h : Visit mem value vol T id rope l) (hn : T.leaves.Nodup) : l.Nodup := by
  induction h with
  | leaf i rope hl => simp
  | node a b id ia ib rope va vb hl hch hva hvb iha ihb =>
    rw [BTree.leaves] at hn
    rw [List.nodup_append] at hn
    obtain ⟨n1, n2, n3⟩ := hn
    rw [List.nodup_cons, List.nodup_append]
    have big : ∀ {v c jc rc}, Visit mem value vol c jc rc v → c.leaves.length < (BTree.node a b).leaves.length → id ∉ v := by
      intro v c jc rc hv hlt hid
      obtain ⟨S, r, h1, h2⟩ := hv.sub hid
      have := layout_unique _ hl h1
      subst this
      have := h2.length_le
      omega
    have pa := leaves_pos a
    have pb := leaves_pos b
    refine ⟨?_, ihb n2, iha n1, ?_⟩
    · rw [List.mem_append, not_or]
      exact ⟨big hvb (by simp only [BTree.leaves, List.length_append]; omega), big hva (by simp only [BTree.leaves, List.length_append]; omega)⟩
    · rintro x hx y hy rfl
      obtain ⟨S, r, h1, h2⟩ := hvb.sub hx
      obtain ⟨S', r', h1', h2'⟩ := hva.sub hy
      have := layout_unique _ h1 h1'
      subst this
      have hp := leaves_pos S
      obtain ⟨z, hz⟩ := List.exists_mem_of_length_pos (by omega : 0 < S.leaves.length)
      exact n3 z (h2'.subset hz) z (h2.subset hz) rfl

/-- The ids of the nodes. -/
lemma Visit.lt {T : BTree} {id : ℕ} {rope : Option ℕ} {l : List ℕ} (h : Visit mem value vol T id rope l) {B : ℕ} (hB : mem.size ≤ B)
    (hi : ∀ j x, mem.internal j = some x → mem.size + j < B) {j : ℕ} (hj : j ∈ l) : j < B := by
  obtain ⟨S, r, h1, -⟩ := h.sub hj
  cases S with
  | leaf i => have := h1.1; have := h1.2.1; omega
  | node a b =>
    obtain ⟨_, _, h2, h3, -⟩ := h1
    have := hi _ _ h3
    omega

end ArborX.Viz
