import Verif.Mpi.Queries

/-! # Several calls one after another -/

namespace ArborX.Mpi

open Distributed DistDbscan BVH Traversal

section

variable {C X M R R' : Type} {P : ℕ}

/-- One program after another. -/
def Prog.bind (f : R → Prog C X M R') : Prog C X M R → Prog C X M R'
  | .done r => f r
  | .enter c x k => .enter c x fun xs => (k xs).bind f
  | .leave c k => .leave c fun xs => (k xs).bind f
  | .irecv t k => .irecv t (k.bind f)
  | .isend d m k => .isend d m (k.bind f)
  | .wait k => .wait fun g => (k g).bind f

lemma bind_exchange (f : R → Prog C X M R') (src : List ℕ) (msgs : List (ℕ × M)) (k : (ℕ → List M) → Prog C X M R) :
    (exchange src msgs k).bind f = exchange src msgs fun g => (k g).bind f := by
  unfold exchange
  have hs : ∀ p : Prog C X M R, (isends msgs p).bind f = isends msgs (p.bind f) := by
    intro p
    induction msgs with
    | nil => rfl
    | cons y l ih => simp [isends, Prog.bind, ih]
  induction src with
  | nil => exact hs _
  | cons t l ih => simp only [irecvs, Prog.bind, ih]

lemma Runs.bind {p : ℕ → Prog C X M R} {res : ℕ → R} (h : Runs P p res) {f : ℕ → R → Prog C X M R'} {res' : ℕ → R'} (hf : Runs P (fun r => f r (res r)) res') :
    Runs P (fun r => (p r).bind (f r)) res' := by
  induction h with
  | done h => exact hf.congr fun s hs => by rw [h s hs]; rfl
  | coll c x k h _ ih =>
    refine .coll c x (fun s xs => (k s xs).bind (f s)) (fun s hs => by rw [h s hs]; rfl) (ih hf)
  | exch src msgs k h h1 h2 h3 _ ih =>
    exact .exch src msgs (fun s g => (k s g).bind (f s)) (fun s hs => by rw [h s hs, bind_exchange]) h1 h2 h3 (ih hf)

end

variable {α V T : Type} {w : ℕ} [SemilatticeSup V] [OrderBot V]

/-- A call of `query` for spatial predicates: what all processes pass and how they execute it. -/
structure Call (α V T : Type) where
  E : QEnv
  Lt : ℕ → LEnv
  Lb : ℕ → LEnv
  fuel : ℕ
  cb : Pred α V → α → List T
  user : ℕ → List T
  queries : ℕ → List (Pred α V)

/-- Calls of process `r`, one after another; then the tree is destroyed (`src/distributed/ArborX_DistributedTree.hpp` 177-181). -/
def callsP (L : Local α V w) (P r : ℕ) (vols : ℕ → V) (sizes : ℕ → ℕ) : List (Call α V T) → List (List ℕ × List T) → LProg V (Datum (Pred α V) T) (List (List ℕ × List T))
  | [], acc => .enter .free .empty fun _ => .done (some acc)
  | c :: cs, acc => (spatialP L P r c.E (c.Lt r) (c.Lb r) c.fuel c.cb (c.user r) (c.queries r) vols sizes).bind fun o => localP o fun x => callsP L P r vols sizes cs (acc ++ [x])

lemma spatial_runs' {D : DTree α V w} {E : QEnv} (hE : E.Valid) {Lt Lb : ℕ → LEnv} {fuel : ℕ} {cb : Pred α V → α → List T} {user : ℕ → List T}
    {queries : ℕ → List (Pred α V)} {res : ℕ → List ℕ × List T} (h : D.spatial E Lt Lb fuel cb user queries = some res) :
    Runs D.P (fun r => spatialP (localOf D r) D.P r E (Lt r) (Lb r) fuel cb (user r) (queries r) (D.top r).vol fun i => (D.bottom i).n) fun r => some (res r) := by
  unfold DTree.spatial at h
  split at h
  · cases h
  unfold spatialP
  change (if ((List.range D.P).map fun i => (D.bottom i).n).sum = 0 then _ else _) = _ at h
  split at h
  · rename_i h0
    simp only [Option.some.injEq] at h
    subst h
    exact .done fun s _ => by rw [if_pos h0]
  · rename_i h0
    obtain ⟨t, ht, h⟩ := Option.bind_eq_some_iff.1 h
    simp only [if_neg h0]
    exact local_runs (collect_some ht) (forwardAndCommunicate_runs .std hE h (.done fun _ _ => rfl))

lemma nearest_runs' {K : Type} [LinearOrder K] {D : DTree α V w} {withCallback asserts : Bool} {E : NEnv K} (h1 : E.one.Valid) (h2 : E.two.Valid) {fuel : ℕ} {cb : NPred α V K → α → T}
    {queries : ℕ → List (NPred α V K)} {res : ℕ → List ℕ × List T} (h : D.nearest withCallback asserts E fuel cb queries = some res) :
    Runs D.P (fun r => nearestP (localOf D r) D.P r withCallback asserts E fuel cb (queries r) (D.top r).vol fun i => (D.bottom i).n) fun r => some (res r) := by
  unfold DTree.nearest at h
  split at h
  · cases h
  unfold nearestP
  change (if ((List.range D.P).map fun i => (D.bottom i).n).sum = 0 ∧ withCallback = true then _ else if ((List.range D.P).map fun i => (D.bottom i).n).sum = 0 ∧ asserts = true then _ else _) = _ at h
  split at h
  · rename_i h0
    simp only [Option.some.injEq] at h
    subst h
    exact .done fun s _ => by rw [if_pos h0]
  · rename_i h0
    split at h
    · cases h
    rename_i h0'
    simp only [if_neg h0, if_neg h0']
    obtain ⟨far, hfar, h⟩ := Option.bind_eq_some_iff.1 h
    unfold DTree.phaseI at hfar
    obtain ⟨t, ht, hfar⟩ := Option.bind_eq_some_iff.1 hfar
    obtain ⟨t', ht', hfar⟩ := Option.bind_eq_some_iff.1 hfar
    obtain ⟨d, hd, hfar⟩ := Option.bind_eq_some_iff.1 hfar
    unfold DTree.phaseII at h
    obtain ⟨u, hu, h⟩ := Option.bind_eq_some_iff.1 h
    obtain ⟨e, he, h⟩ := Option.bind_eq_some_iff.1 h
    unfold phaseIP phaseIIP
    exact local_runs (collect_some ht) (local_runs (collect_some ht') (forwardAndCommunicate_runs .left h1 hd (local_runs (collect_some hfar)
      (local_runs (collect_some hu) (forwardAndCommunicate_runs .right h2 he (local_runs (collect_some h) (.done fun _ _ => rfl)))))))

lemma calls_runs {D : DTree α V w} (calls : List (Call α V T)) (hE : ∀ c ∈ calls, c.E.Valid) (out : Call α V T → ℕ → List ℕ × List T)
    (h : ∀ c ∈ calls, D.spatial c.E c.Lt c.Lb c.fuel c.cb c.user c.queries = some (out c)) (acc : ℕ → List (List ℕ × List T)) :
    Runs D.P (fun r => callsP (localOf D r) D.P r (D.top r).vol (fun i => (D.bottom i).n) calls (acc r)) fun r => some (acc r ++ calls.map fun c => out c r) := by
  induction calls generalizing acc with
  | nil =>
    refine .coll .free (fun _ => .empty) _ (fun s _ => rfl) (.done fun s _ => ?_)
    simp
  | cons c cs ih =>
    have := ih (fun c hc => hE c (List.mem_cons_of_mem _ hc)) (fun c hc => h c (List.mem_cons_of_mem _ hc)) (fun r => acc r ++ [out c r])
    have hb := (spatial_runs' (hE c List.mem_cons_self) (h c List.mem_cons_self)).bind
      (f := fun r o => localP o fun x => callsP (localOf D r) D.P r (D.top r).vol (fun i => (D.bottom i).n) cs (acc r ++ [x])) (local_runs (b := out c) (fun r _ => rfl) this)
    simpa [callsP] using hb

end ArborX.Mpi
