import Verif.Shared.Lemmas
import Verif.Heap.Model

/-!
# The heap algorithms on a part of a shared array

The functions of `src/misc/ArborX_Heap.hpp` and `src/misc/ArborX_PriorityQueue.hpp` on the entries from `o` on of a
view, as programs of single reads and writes. They do the same as the functions on lists of `Verif.Heap.Model`.
-/

namespace ArborX.Shared

variable {T R : Type} (comp : T → T → Bool)

/-- `bubbleUp` (`ArborX_Heap.hpp` 40-54). -/
def bubbleUp (o pos top : ℕ) (val : T) : Prog T Unit :=
  if _h : top < pos then
    .read (o + (pos - 1) / 2) fun p =>
      if comp p val then .read (o + (pos - 1) / 2) fun p' => .write (o + pos) p' (bubbleUp o ((pos - 1) / 2) top val)
      else .write (o + pos) val (.ret ())
  else .write (o + pos) val (.ret ())
  termination_by pos

/-- `pushHeap` (`ArborX_Heap.hpp` 56-70) on the first `n` entries. -/
def pushHeap (o n : ℕ) : Prog T Unit :=
  if 1 < n then .read (o + (n - 1)) fun v => bubbleUp comp o (n - 1) 0 v else .ret ()

/-- `bubbleDown` (`ArborX_Heap.hpp` 72-92). `fuel` bounds the number of iterations by the number of entries that are left. -/
def bubbleDown (o len : ℕ) (val : T) : ℕ → ℕ → Prog T Unit
  | 0, _ => .fault
  | fuel + 1, pos =>
    let go (child : ℕ) : Prog T Unit :=
      if child < len then
        .read (o + child) fun c =>
          if comp val c then .read (o + child) fun c' => .write (o + pos) c' (bubbleDown o len val fuel child)
          else .write (o + pos) val (.ret ())
      else .write (o + pos) val (.ret ())
    if 2 * pos + 1 + 1 < len then
      .read (o + (2 * pos + 1)) fun x => .read (o + (2 * pos + 1 + 1)) fun y => go (if comp x y then 2 * pos + 1 + 1 else 2 * pos + 1)
    else go (2 * pos + 1)

/-- `popHeap` (`ArborX_Heap.hpp` 94-109) on the first `n` entries. -/
def popHeap (o n : ℕ) : Prog T Unit :=
  if 1 < n then
    .read o fun value => .read (o + (n - 1)) fun l =>
      (bubbleDown comp o (n - 1) l n 0).bind fun _ => .write (o + (n - 1)) value (.ret ())
  else .ret ()

/-- `sortHeap` (`ArborX_Heap.hpp` 120-126) on the first `n` entries. -/
def sortHeap (o : ℕ) : ℕ → Prog T Unit
  | 0 => .ret ()
  | n + 1 => (popHeap comp o (n + 1)).bind fun _ => sortHeap o n

/-- `PriorityQueue::push` (`ArborX_PriorityQueue.hpp` 59-68) on `UnmanagedStaticVector` (`src/misc/ArborX_Containers.hpp`
64-98): `size` entries are in use. The result is the new size. The assertion that the size is less than the capacity is not
checked here; a write outside of the view is a fault. -/
def push (o size : ℕ) (v : T) : Prog T ℕ :=
  .write (o + size) v ((pushHeap comp o (size + 1)).bind fun _ => .ret (size + 1))

/-- `PriorityQueue::popPush` (`ArborX_PriorityQueue.hpp` 84-91). -/
def popPush (o size : ℕ) (v : T) : Prog T ℕ :=
  if size = 0 then .fault else (bubbleDown comp o size v (size + 1) 0).bind fun _ => .ret size

/-- The first entries of the part hold the list. -/
def Holds (m : ℕ → Option T) (o : ℕ) (a : List T) : Prop := ∀ j < a.length, m (o + j) = a[j]?

variable {comp}

lemma Holds.get {m : ℕ → Option T} {o : ℕ} {a : List T} (h : Holds m o a) {j : ℕ} {v : T} (hv : a[j]? = some v) :
    m (o + j) = some v := by
  rw [h j (List.getElem?_eq_some_iff.mp hv).1, hv]

lemma Holds.set {m : ℕ → Option T} {o : ℕ} {a : List T} (h : Holds m o a) (j : ℕ) (v : T) :
    Holds (Function.update m (o + j) (some v)) o (a.set j v) := by
  intro i hi
  rw [List.length_set] at hi
  by_cases hij : i = j
  · subst hij
    rw [Function.update_self, List.getElem?_set_self hi]
  · rw [Function.update_of_ne (by omega), List.getElem?_set_ne (Ne.symm hij)]
    exact h i hi

lemma Holds.snoc {m : ℕ → Option T} {o : ℕ} {a : List T} (h : Holds m o a) (v : T) :
    Holds (Function.update m (o + a.length) (some v)) o (a ++ [v]) := by
  intro i hi
  rw [List.length_append, List.length_singleton] at hi
  by_cases hij : i = a.length
  · subst hij
    simp
  · rw [Function.update_of_ne (by omega), List.getElem?_append_left (by omega)]
    exact h i (by omega)

lemma exec_read {lo hi a : ℕ} {k : T → Prog T R} {m : ℕ → Option T} {v : T} (h1 : lo ≤ a) (h2 : a < hi) (h : m a = some v) :
    (Prog.read a k).exec lo hi m = (k v).exec lo hi m := by
  simp only [Prog.exec]
  rw [if_pos ⟨h1, h2⟩, h]

lemma exec_write {lo hi a : ℕ} {k : Prog T R} {m : ℕ → Option T} {v : T} (h1 : lo ≤ a) (h2 : a < hi) :
    (Prog.write a v k).exec lo hi m = k.exec lo hi (Function.update m a (some v)) := by
  simp only [Prog.exec]
  rw [if_pos ⟨h1, h2⟩]

/-- Read an entry of the list. -/
lemma Holds.read {m : ℕ → Option T} {o cap : ℕ} {a : List T} (h : Holds m o a) (hc : a.length ≤ cap) {j : ℕ} {v : T} (hv : a[j]? = some v)
    (k : T → Prog T R) : (Prog.read (o + j) k).exec o (o + cap) m = (k v).exec o (o + cap) m :=
  exec_read (by omega) (by have := (List.getElem?_eq_some_iff.mp hv).1; omega) (h.get hv)

/-- `f` does on the part what `g` does on the list. -/
def Does (cap o : ℕ) (p : Prog T R) (r : R) (a a' : List T) : Prop :=
  ∀ m, Holds m o a → ∃ m', p.exec o (o + cap) m = some (r, m') ∧ Holds m' o a'

lemma does_write {cap o : ℕ} {a a' : List T} {j : ℕ} {v : T} (h : Heap.write a j v = some a') (hc : a.length ≤ cap) :
    Does cap o (Prog.write (o + j) v (.ret ())) () a a' ∧ a'.length = a.length := by
  unfold Heap.write at h
  split at h
  · rename_i hj
    obtain rfl := Option.some.inj h
    refine ⟨fun m hm => ⟨_, ?_, hm.set j v⟩, List.length_set⟩
    rw [exec_write (by omega) (by omega)]
    rfl
  · simp at h

lemma Does.bind {S : Type} {cap o : ℕ} {p : Prog T R} {f : R → Prog T S} {r : R} {s : S} {a b c : List T} (h1 : Does cap o p r a b)
    (h2 : Does cap o (f r) s b c) : Does cap o (p.bind f) s a c := by
  intro m hm
  obtain ⟨m1, k1, k2⟩ := h1 m hm
  obtain ⟨m2, k3, k4⟩ := h2 m1 k2
  exact ⟨m2, by rw [exec_bind k1, k3], k4⟩

lemma Does.read {cap o : ℕ} {k : T → Prog T R} {r : R} {a b : List T} {j : ℕ} {v : T} (hv : a[j]? = some v) (hc : a.length ≤ cap)
    (h : Does cap o (k v) r a b) : Does cap o (Prog.read (o + j) k) r a b := by
  intro m hm
  rw [hm.read hc hv]
  exact h m hm

lemma Does.write {cap o : ℕ} {k : Prog T R} {r : R} {a b c : List T} {j : ℕ} {v : T} (hv : Heap.write a j v = some b) (hc : a.length ≤ cap)
    (h : Does cap o k r b c) : Does cap o (Prog.write (o + j) v k) r a c :=
  fun m hm => Does.bind (does_write hv hc).1 (f := fun _ => k) h m hm

lemma write_length {a b : List T} {j : ℕ} {v : T} (h : Heap.write a j v = some b) : b.length = a.length := by
  unfold Heap.write at h
  split at h
  · obtain rfl := Option.some.inj h; simp
  · simp at h

lemma does_bubbleUp {cap o top : ℕ} {val : T} (pos : ℕ) : ∀ {a a' : List T}, Heap.bubbleUp comp a pos top val = some a' → a.length ≤ cap →
    Does cap o (bubbleUp comp o pos top val) () a a' ∧ a'.length = a.length := by
  induction pos using Nat.strong_induction_on with
  | _ pos ih =>
    intro a a' h hc
    rw [Heap.bubbleUp.eq_def] at h
    rw [bubbleUp.eq_def]
    split at h
    · rename_i hlt
      rw [dif_pos hlt]
      split at h
      · simp at h
      · rename_i p hp
        split at h
        · rename_i hcmp
          split at h
          · simp at h
          · rename_i b hb
            have hbl := write_length hb
            obtain ⟨k1, k2⟩ := ih ((pos - 1) / 2) (by omega) h (by omega)
            refine ⟨Does.read hp hc ?_, by omega⟩
            rw [if_pos hcmp]
            exact Does.read hp hc (Does.write hb hc k1)
        · rename_i hcmp
          obtain ⟨k1, k2⟩ := does_write (o := o) h hc
          refine ⟨Does.read hp hc ?_, k2⟩
          rw [if_neg hcmp]
          exact k1
    · rename_i hlt
      rw [dif_neg hlt]
      exact does_write h hc

lemma does_pushHeap {cap o n : ℕ} {a a' : List T} (h : Heap.pushHeap comp a n = some a') (hc : a.length ≤ cap) :
    Does cap o (pushHeap comp o n) () a a' ∧ a'.length = a.length := by
  unfold Heap.pushHeap at h
  unfold pushHeap
  split at h
  · rename_i hn
    rw [if_pos hn]
    split at h
    · simp at h
    · rename_i v hv
      obtain ⟨k1, k2⟩ := does_bubbleUp (o := o) _ h hc
      exact ⟨Does.read hv hc k1, k2⟩
  · rename_i hn
    rw [if_neg hn]
    obtain rfl := Option.some.inj h
    exact ⟨fun m hm => ⟨m, rfl, hm⟩, rfl⟩

lemma does_bubbleDown {cap o len : ℕ} {val : T} (fuel : ℕ) : ∀ {pos : ℕ} {a a' : List T}, Heap.bubbleDown comp a pos len val = some a' →
    a.length ≤ cap → len - pos < fuel → Does cap o (bubbleDown comp o len val fuel pos) () a a' ∧ a'.length = a.length := by
  induction fuel with
  | zero => intro pos a a' _ _ h; omega
  | succ fuel ih =>
    intro pos a a' h hc hf
    rw [Heap.bubbleDown.eq_def] at h
    simp only [bubbleDown]
    split at h
    · simp at h
    · rename_i child hchild
      have hgt := Heap.pickChild_gt comp hchild
      have key : Does cap o (if child < len then
        Prog.read (o + child) fun c =>
          if comp val c then .read (o + child) fun c' => .write (o + pos) c' (bubbleDown comp o len val fuel child)
          else .write (o + pos) val (.ret ())
        else .write (o + pos) val (.ret ())) () a a' ∧ a'.length = a.length := by
        split at h
        · rename_i hlt
          rw [if_pos hlt]
          split at h
          · simp at h
          · rename_i c hcv
            split at h
            · rename_i hcmp
              split at h
              · simp at h
              · rename_i b hb
                have hbl := write_length hb
                obtain ⟨k1, k2⟩ := ih h (by omega) (by omega)
                refine ⟨Does.read hcv hc ?_, by omega⟩
                rw [if_pos hcmp]
                exact Does.read hcv hc (Does.write hb hc k1)
            · rename_i hcmp
              obtain ⟨k1, k2⟩ := does_write (o := o) h hc
              refine ⟨Does.read hcv hc ?_, k2⟩
              rw [if_neg hcmp]
              exact k1
        · rename_i hlt
          rw [if_neg hlt]
          exact does_write h hc
      unfold Heap.pickChild at hchild
      split at hchild
      · rename_i hl
        rw [if_pos hl]
        split at hchild
        · rename_i x y hx hy
          obtain rfl := Option.some.inj hchild
          exact ⟨Does.read hx hc (Does.read hy hc key.1), key.2⟩
        · simp at hchild
      · rename_i hl
        rw [if_neg hl]
        obtain rfl := Option.some.inj hchild
        exact key

lemma does_popHeap {cap o n : ℕ} {a a' : List T} (h : Heap.popHeap comp a n = some a') (hc : a.length ≤ cap) :
    Does cap o (popHeap comp o n) () a a' ∧ a'.length = a.length := by
  unfold Heap.popHeap at h
  unfold popHeap
  split at h
  · rename_i hn
    rw [if_pos hn]
    split at h
    · rename_i value l hv hl
      split at h
      · simp at h
      · rename_i b hb
        obtain ⟨k1, k2⟩ := does_bubbleDown (o := o) n hb hc (by omega)
        obtain ⟨k3, k4⟩ := does_write (cap := cap) (o := o) h (by omega)
        refine ⟨?_, by omega⟩
        have := Does.read (o := o) (k := fun value => .read (o + (n - 1)) fun l =>
          (bubbleDown comp o (n - 1) l n 0).bind fun _ => .write (o + (n - 1)) value (.ret ())) hv hc (Does.read hl hc (Does.bind k1 k3))
        exact this
    · simp at h
  · rename_i hn
    rw [if_neg hn]
    obtain rfl := Option.some.inj h
    exact ⟨fun m hm => ⟨m, rfl, hm⟩, rfl⟩

lemma does_sortHeap {cap o : ℕ} (n : ℕ) : ∀ {a a' : List T}, Heap.sortHeap comp a n = some a' → a.length ≤ cap →
    Does cap o (sortHeap comp o n) () a a' ∧ a'.length = a.length := by
  induction n with
  | zero =>
    intro a a' h _
    obtain rfl := Option.some.inj h
    exact ⟨fun m hm => ⟨m, rfl, hm⟩, rfl⟩
  | succ n ih =>
    intro a a' h hc
    rw [Heap.sortHeap] at h
    split at h
    · simp at h
    · rename_i b hb
      obtain ⟨k1, k2⟩ := does_popHeap (o := o) hb hc
      obtain ⟨k3, k4⟩ := ih h (by omega)
      exact ⟨Does.bind k1 k3, by omega⟩

lemma does_push {cap o : ℕ} {a a' : List T} {v : T} (h : Heap.push comp cap a v = some a') :
    Does cap o (push comp o a.length v) a'.length a a' ∧ a'.length = a.length + 1 := by
  unfold Heap.push at h
  split at h
  · rename_i hlt
    obtain ⟨k1, k2⟩ := does_pushHeap (o := o) h (cap := cap) (by simp; omega)
    rw [List.length_append, List.length_singleton] at k2
    refine ⟨fun m hm => ?_, k2⟩
    unfold push
    rw [exec_write (by omega) (by omega)]
    obtain ⟨m', k3, k4⟩ := k1 _ (hm.snoc v)
    exact ⟨m', by rw [exec_bind k3, k2]; rfl, k4⟩
  · simp at h

lemma does_popPush {cap o : ℕ} {a a' : List T} {v : T} (h : Heap.popPush comp a v = some a') (hc : a.length ≤ cap) :
    Does cap o (popPush comp o a.length v) a'.length a a' ∧ a'.length = a.length := by
  unfold Heap.popPush at h
  unfold popPush
  split at h
  · simp at h
  · rename_i hne
    rw [if_neg hne]
    obtain ⟨k1, k2⟩ := does_bubbleDown (o := o) (a.length + 1) h hc (by omega)
    rw [k2]
    exact ⟨Does.bind k1 (fun m hm => ⟨m, rfl, hm⟩), rfl⟩

end ArborX.Shared
