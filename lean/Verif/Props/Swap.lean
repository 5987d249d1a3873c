import Verif.Props.Move
import Verif.Props.SharedVector
import Verif.Props.BinaryHeap
import Verif.Props.Array

/- C97: `std::swap` of containers and allocators: `T t(std::move(a)); a = std::move(b); b = std::move(t);` and the destructor of `t`. -/
namespace KTL

/-- `std::swap(vs[i], vs[j])`, `n` being the number of vectors: the temporary is constructed last. Specification, not code. -/
def VOp.swap (i j n : Nat) : List VOp := [.move i, .moveAssign i j, .moveAssign j n, .destroy n]

/-- `std::swap(vs[i], vs[j])` of arrays. Specification, not code. -/
def ArrOp.swap (i j n : Nat) : List ArrOp := [.move i, .moveAssign i j, .moveAssign j n, .destroy n]

/-- `std::swap(hs[i], hs[j])` of heaps. Specification, not code. -/
def BOp.swap {α : Type} (i j n : Nat) : List (BOp α) := [.move i, .moveAssign i j, .moveAssign j n, .destroy n]

/-- what three moves do to a list of containers; `z1`, `z2`, `z3` are left by the moves (helper) -/
theorem swap_list {α} (l : List α) (i j : Nat) (u v v' z1 z2 z3 : α) (hi : l[i]? = some u) (hj : l[j]? = some v) (hv : v' = if i = j then z1 else v) :
    let l1 := l.set i z1 ++ [u]
    let l2 := (l1.set i v').set j z2
    let l3 := (l2.set j u).set l.length z3
    l1[i]? = some z1 ∧ l1[j]? = some v' ∧ l2[j]? = some z2 ∧ l2[l.length]? = some u ∧ l3[l.length]? = some z3 ∧
      l3.eraseIdx l.length = (l.set i v).set j u := by
  subst hv
  have h1 : i < l.length := (List.getElem?_eq_some_iff.1 hi).1
  have h2 : j < l.length := (List.getElem?_eq_some_iff.1 hj).1
  have a1 : i < l.length + 1 := by omega
  have a2 : j < l.length + 1 := by omega
  have a3 : i ≠ l.length := by omega
  have a4 : j ≠ l.length := by omega
  dsimp only
  refine ⟨?_, ?_, ?_, ?_, ?_, ?_⟩
  · simp [List.getElem?_append, h1]
  · by_cases e : i = j
    · subst e; simp [List.getElem?_append, h1]
    · simp [List.getElem?_append, h2, e, List.getElem?_set]
      rw [List.getElem?_eq_getElem h2] at hj; simpa using hj
  · simp [a2]
  · simp [List.getElem?_set, a3, a4]
  · simp
  · apply List.ext_getElem?
    intro k
    simp only [List.getElem?_eraseIdx, List.getElem?_set, List.getElem?_append, List.length_set, List.length_append, List.length_singleton]
    by_cases hk : k < l.length
    · have : l.length ≠ k := by omega
      by_cases hjk : j = k
      · subst hjk; simp [hk, this, a2]
      · by_cases hik : i = k
        · subst hik
          have : i ≠ j := fun h => hjk h.symm
          simp [hk, hjk, a1, this]
          omega
        · simp [hk, hjk, hik]
          omega
    · have : k + 1 ≠ l.length := by omega
      have e : l[k]? = none := List.getElem?_eq_none (by omega)
      have e2 : ¬ (k + 1 < l.length) := by omega
      have e3 : ¬ (k + 1 - l.length = 0) := by omega
      have e4 : l.length ≠ k + 1 := by omega
      have e5 : j ≠ k + 1 := by omega
      have e6 : i ≠ k + 1 := by omega
      have e7 : j ≠ k := by omega
      have e8 : i ≠ k := by omega
      simp [hk, e, e2, e3, e4, e5, e6, e7, e8]

/-- **C97, vectors.** `std::swap` of two vectors over one allocator always ends, exchanges the two, and does nothing else: nothing in memory is touched (so
pointers to elements stay valid and refer to the same elements, now in the other vector), and the allocator is not used. This is so in every
state, also for a vector with itself. -/
theorem C97_vector_swap (sz : Nat) {A : Allocator} (c : Vecs A) (i j : Nat) (u v : Vec) (hi : c.vs[i]? = some u) (hj : c.vs[j]? = some v) (w : World) :
    c.run sz (VOp.swap i j c.vs.length) w = .ok { c with vs := (c.vs.set i v).set j u } w := by
  obtain ⟨h1, h2, h3, h4, h5, h6⟩ := swap_list c.vs i j u v (if i = j then Vec.null else v) Vec.null Vec.null Vec.null hi hj rfl
  have d : ∀ s : A.St, Vec.null.destroy sz A s = pure s := fun s => by simp [Vec.destroy, Vec.null]
  simp only [VOp.swap, Vecs.run, Vecs.step, Vecs.moveAssign, hi, M.bind_apply, M.pure_apply, h1, h2, h3, h4, h5, h6, d]

/-- **C97, arrays.** -/
theorem C97_array_swap (sz : Nat) {A : Allocator} (c : Arrs A) (i j : Nat) (u v : Arr) (hi : c.vs[i]? = some u) (hj : c.vs[j]? = some v) (w : World) :
    c.run sz (ArrOp.swap i j c.vs.length) w = .ok { c with vs := (c.vs.set i v).set j u } w := by
  obtain ⟨h1, h2, h3, h4, h5, h6⟩ := swap_list c.vs i j u v (if i = j then Arr.null else v) Arr.null Arr.null Arr.null hi hj rfl
  have d : ∀ s : A.St, Arr.null.destroy sz A s = pure s := fun s => by simp [Arr.destroy, Arr.null]
  simp only [ArrOp.swap, Arrs.run, Arrs.step, Arrs.moveAssign, hi, M.bind_apply, M.pure_apply, h1, h2, h3, h4, h5, h6, d]

/-- **C97, heaps.** No element is constructed, moved, assigned to or destroyed either (`objs` stays as it is). -/
theorem C97_heap_swap {α : Type} (E : Elt α) (comp eq : α → α → Bool) {A : Allocator} (c : BHeaps A α) (i j : Nat) (u v : BHeap)
    (hi : c.hs[i]? = some u) (hj : c.hs[j]? = some v) (w : World) :
    c.run E comp eq (BOp.swap i j c.hs.length) w = .ok { c with hs := (c.hs.set i v).set j u } w := by
  obtain ⟨h1, h2, h3, h4, h5, h6⟩ := swap_list c.hs i j u v (if i = j then BHeap.null else v) BHeap.null BHeap.null BHeap.null hi hj rfl
  have d : ∀ (s : A.St) (o : Objs α), BHeap.null.destroy E A s o = pure (s, o) := fun s o => by simp [BHeap.destroy, BHeap.null]
  simp only [BOp.swap, BHeaps.run, BHeaps.step, BHeaps.moveAssign, hi, M.bind_apply, M.pure_apply, h1, h2, h3, h4, h5, h6, d]

/-- `vs[i] = std::move(vs[j])`, also for `i = j`. Specification, not code. -/
def ShVecs.moveTo (sys : Sys) (sz : Nat) {A : Allocator} (c : ShVecs A) (i j : Nat) : M (ShVecs A) :=
  match c.vs[i]?, c.vs[j]? with
  | some (k, v), some (l, o) => c.moveAssign sys sz i k v j l o
  | _, _ => pure c

/-- `std::swap(vs[i], vs[j])` of vectors with reference counted handles of their allocators. Specification, not code. -/
def ShVecs.swap (sys : Sys) (sz : Nat) {A : Allocator} (c : ShVecs A) (i j : Nat) : M (ShVecs A) := do
  let c1 ← c.step sys sz (.move i)
  let c2 ← c1.moveTo sys sz i j
  let c3 ← c2.moveTo sys sz j c.vs.length
  c3.step sys sz (.destroy c.vs.length)

section
variable {A : Allocator}

theorem ShVecs.free_null (sz : Nat) (c : ShVecs A) (k : Nat) (B : ShBlock A) (h : c.bl[k]? = some (some B)) (w : World) : c.free sz k Vec.null w = .ok c.bl w := by
  have : c.bl.set k (some B) = c.bl := by
    apply List.ext_getElem?
    intro x
    rw [List.getElem?_set]
    split
    · rename_i e; subst e
      rw [if_pos (List.getElem?_eq_some_iff.1 h).1]; exact h.symm
    · rfl
  simp [ShVecs.free, ShBlocks.use, h, Vec.destroy, Vec.null, M.bind_apply, M.pure_apply, this]

theorem ShBlocks.decrement_many (sys : Sys) (bl : ShBlocks A) (k : Nat) (B : ShBlock A) (h : bl[k]? = some (some B)) (hc : B.count ≠ 1) (w : World) :
    bl.decrement sys k w = .ok (bl.set k (some { B with count := B.count - 1 })) w := by
  simp [ShBlocks.decrement, h, hc, M.pure_apply]

theorem ShBlocks.increment_ok (bl : ShBlocks A) (k : Nat) (B : ShBlock A) (h : bl[k]? = some (some B)) (w : World) :
    bl.increment k w = .ok (bl.set k (some { B with count := B.count + 1 })) w := by
  simp [ShBlocks.increment, h, M.pure_apply]

theorem shared_swap (sys : Sys) (sz : Nat) (c : ShVecs A) (i j k l : Nat) (u v : Vec) (hi : c.vs[i]? = some (k, u)) (hj : c.vs[j]? = some (l, v))
    (B D : ShBlock A) (hB : c.bl[k]? = some (some B)) (hD : c.bl[l]? = some (some D)) (h1 : 1 ≤ B.count) (h2 : 1 ≤ D.count) (w : World) :
    c.swap sys sz i j w = .ok { c with vs := (c.vs.set i (l, v)).set j (k, u) } w := by
  have hk : k < c.bl.length := (List.getElem?_eq_some_iff.1 hB).1
  have hl : l < c.bl.length := (List.getElem?_eq_some_iff.1 hD).1
  have hi' : i < c.vs.length := (List.getElem?_eq_some_iff.1 hi).1
  have hj' : j < c.vs.length := (List.getElem?_eq_some_iff.1 hj).1
  -- after the construction of the temporary
  have e1 : c.step sys sz (.move i) w = .ok { c with bl := c.bl.set k (some { B with count := B.count + 1 }), vs := c.vs.set i (k, Vec.null) ++ [(k, u)] } w := by
    simp [ShVecs.step, hi, M.bind_apply, ShBlocks.increment_ok c.bl k B hB, M.pure_apply]
  unfold ShVecs.swap
  rw [M.bind_apply, e1]
  dsimp only
  have hv : (l, if i = j then Vec.null else v) = if i = j then (k, Vec.null) else (l, v) := by
    by_cases e : i = j
    · subst e; rw [hi] at hj; simp only [Option.some.injEq, Prod.mk.injEq] at hj; simp [hj.1]
    · simp [e]
  obtain ⟨x1, x2, x3, x4, x5, x6⟩ := swap_list c.vs i j (k, u) (l, v) (l, if i = j then Vec.null else v) (k, Vec.null) (l, Vec.null) (k, Vec.null) hi hj hv
  rw [M.bind_apply]
  unfold ShVecs.moveTo
  dsimp only
  rw [x1, x2]
  dsimp only
  unfold ShVecs.moveAssign
  have b1 : (c.bl.set k (some { B with count := B.count + 1 }))[k]? = some (some { B with count := B.count + 1 }) := by simp [hk]
  rw [M.bind_apply, ShVecs.free_null sz _ k _ b1]
  dsimp only
  unfold ShBlocks.assign
  rw [M.bind_apply, M.bind_apply, ShBlocks.decrement_many sys _ k _ b1 (by simp; omega)]
  dsimp only
  rw [List.set_set, Nat.add_sub_cancel, set_self hB, ShBlocks.increment_ok _ l _ hD]
  simp only [M.pure_apply]
  -- the second assignment
  have b2 : (c.bl.set l (some { D with count := D.count + 1 }))[l]? = some (some { D with count := D.count + 1 }) := by simp [hl]
  rw [M.bind_apply, x3, x4]
  dsimp only
  rw [M.bind_apply, ShVecs.free_null sz _ l _ b2]
  dsimp only
  rw [M.bind_apply, M.bind_apply, ShBlocks.decrement_many sys _ l _ b2 (by simp; omega)]
  dsimp only
  rw [List.set_set, Nat.add_sub_cancel, set_self hD, ShBlocks.increment_ok _ k _ hB]
  simp only [M.pure_apply]
  -- the destructor of the temporary
  simp only [ShVecs.step, x5, M.bind_apply]
  rw [ShVecs.free_null sz _ k _ b1]
  dsimp only
  rw [ShBlocks.decrement_many sys _ k _ b1 (by simp; omega)]
  simp only [M.pure_apply, x6]
  rw [List.set_set, Nat.add_sub_cancel, set_self hB]

end

/-- **C97, vectors over reference counted allocators**, each with its own handle, as in C71: in every reachable state `std::swap` of two vectors, over the
same or over different allocators, always ends. It exchanges the vectors together with their handles and does nothing else: no
allocator is used or deleted, all counters are as before, and memory is not touched. This is so also for a vector with itself (unlike
`v = std::move(v)`, see C87): the temporary has a handle of its own while the vector is assigned to itself. -/
theorem C97_shared_swap (sys : Sys) (t : AllocTy) (hwf : t.WF) (w : World) (sz : Nat) (hz : 0 < sz) (ops : List ShOp) (hops : ShSane t sz ops)
    (c : ShVecs (t.denote sys)) (w' : World) (hrun : ShVecs.run sys sz (A := t.denote sys) ⟨[], [], []⟩ ops w = .ok c w')
    (i j k l : Nat) (u v : Vec) (hi : c.vs[i]? = some (k, u)) (hj : c.vs[j]? = some (l, v)) :
    c.swap sys sz i j w' = .ok { c with vs := (c.vs.set i (l, v)).set j (k, u) } w' := by
  have := C71_vectors_over_shared sys t hwf w sz hz ops hops
  rw [hrun] at this
  obtain ⟨_, h1, h2, _, _⟩ := this
  have get : ∀ (i k : Nat) (u : Vec), c.vs[i]? = some (k, u) → ∃ B, c.bl[k]? = some (some B) ∧ 1 ≤ B.count := fun i k u hi => by
    have hm : k ∈ c.vs.map Prod.fst := List.mem_map.2 ⟨(k, u), List.mem_of_getElem? hi, rfl⟩
    obtain ⟨B, hB⟩ := (h1 k).2 hm
    exact ⟨B, hB, by rw [h2 k B hB]; exact List.count_pos_iff.2 hm⟩
  obtain ⟨B, hB, b1⟩ := get i k u hi
  obtain ⟨D, hD, d1⟩ := get j l v hj
  exact shared_swap sys sz c i j k l u v hi hj B D hB hD b1 d1 w'

/-! ### Allocators -/

/-- `std::swap` of the objects at places `i` and `j`, with the temporary at place `k`. Specification, not code. -/
def MvOp.swap (i j k : Nat) : List MvOp := [.moveNew k i, .moveTo i j, .moveTo j k, .destroy k]

theorem mvrun_append (sys : Sys) {A : Allocator} (m : Moves A) (xs ys : List MvOp) (objs : List (MvObj A)) :
    mvrun sys m objs (xs ++ ys) = (do let o ← mvrun sys m objs xs; mvrun sys m o ys) := by
  induction xs generalizing objs with
  | nil => rfl
  | cons x xs ih =>
    funext w
    simp only [List.cons_append, mvrun, M.bind_apply]
    cases x.step sys m objs w with
    | ok o w1 => dsimp only; rw [ih]; rfl
    | oom _ => rfl
    | ub => rfl

/-- an allocator whose blocks move along is always ready -/
theorem AllocTy.ready_of_carries (sys : Sys) : ∀ (t : AllocTy), (t.moves sys).carries = true → ∀ s, (t.moves sys).ready s = true
  | .null, _, _ => rfl
  | .mallocator, _, _ => rfl
  | .linear _, h, _ => nomatch h
  | .stack _, h, _ => nomatch h
  | .threaded _, h, _ => nomatch h
  | .shared _, h, _ => nomatch h
  | .reference _, h, _ => nomatch h
  | .cascading _, _, _ => rfl
  | .overflow A, h, s => AllocTy.ready_of_carries sys A h s.a
  | .freelist m M A, h, s => by
    replace h : (A.moves sys).carries = true := h
    show (((A.moves sys).carries || s.free == 0) && (A.moves sys).ready s.a) = true
    rw [h, AllocTy.ready_of_carries sys A h s.a]; rfl
  | .fallback P F, h, s => by
    replace h : ((P.moves sys).carries && (F.moves sys).carries) = true := h
    rw [Bool.and_eq_true] at h
    show ((P.moves sys).ready s.1 && (F.moves sys).ready s.2) = true
    rw [AllocTy.ready_of_carries sys P h.1 s.1, AllocTy.ready_of_carries sys F h.2 s.2]; rfl
  | .segragator T P F, h, s => by
    replace h : ((P.moves sys).carries && (F.moves sys).carries) = true := h
    rw [Bool.and_eq_true] at h
    show ((P.moves sys).ready s.1 && (F.moves sys).ready s.2) = true
    rw [AllocTy.ready_of_carries sys P h.1 s.1, AllocTy.ready_of_carries sys F h.2 s.2]; rfl

section
variable {A : Allocator} {m : Moves A} {sys : Sys} {objs objs' : List (MvObj A)} {i j : Nat} {w w' : World}

theorem step_moveNew {a b : Nat} {s : A.St} {J L R S : List (Nat × List UInt8)} (hi : objs[i]? = some ⟨a, none, J, R⟩) (hj : objs[j]? = some ⟨b, some s, L, S⟩)
    (hc : m.carries = true) (hr : ∀ s, m.ready s = true) (h : (MvOp.moveNew i j).step sys m objs w = .ok objs' w') :
    ∃ s1 s2, objs' = (objs.set i ⟨a, some s1, L, R⟩).set j ⟨b, some s2, [], S⟩ := by
  simp only [MvOp.step, hi, hj, hr, hc, M.bind_apply, or_true, and_self, if_true] at h
  split at h <;> cases h
  exact ⟨_, _, rfl⟩

theorem step_moveTo {a b : Nat} {s t : A.St} {L R S : List (Nat × List UInt8)} (hij : i ≠ j) (hi : objs[i]? = some ⟨a, some t, [], R⟩)
    (hj : objs[j]? = some ⟨b, some s, L, S⟩)
    (hc : m.carries = true) (hr : ∀ s, m.ready s = true) (h : (MvOp.moveTo i j).step sys m objs w = .ok objs' w') :
    ∃ s1 s2, objs' = (objs.set i ⟨a, some s1, L, R⟩).set j ⟨b, some s2, [], S⟩ := by
  simp only [MvOp.step, hi, hj, hr, hc, M.bind_apply, or_true, and_self, if_true, if_neg hij] at h
  split at h <;> cases h
  exact ⟨_, _, rfl⟩

theorem step_self {a : Nat} {s : A.St} {R : List (Nat × List UInt8)} (hi : objs[i]? = some ⟨a, some s, [], R⟩)
    (h : (MvOp.moveTo i i).step sys m objs w = .ok objs' w') :
    ∃ s1, objs' = objs.set i ⟨a, some s1, [], R⟩ := by
  simp only [MvOp.step, hi, M.bind_apply, true_or, if_true] at h
  split at h <;> cases h
  exact ⟨_, rfl⟩

theorem step_destroy {a : Nat} {s : A.St} {R : List (Nat × List UInt8)} (hi : objs[i]? = some ⟨a, some s, [], R⟩)
    (h : (MvOp.destroy i).step sys m objs w = .ok objs' w') : objs' = objs.set i ⟨a, none, [], R⟩ := by
  simp only [MvOp.step, hi, M.bind_apply, if_true] at h
  split at h <;> cases h
  rfl

/-- the bookkeeping of a swap (helper) -/
theorem mvswap_book (hc : m.carries = true) (hr : ∀ s, m.ready s = true) {k : Nat}
    {o p q : MvObj A} (hi : objs[i]? = some o) (hj : objs[j]? = some p) (hk : objs[k]? = some q) (ho : o.st.isSome = true) (hp : p.st.isSome = true)
    (hq : q.st = none) (hq' : q.live = []) (h : mvrun sys m objs (MvOp.swap i j k) w = .ok objs' w') :
    objs'.length = objs.length ∧
    (∃ s1 s2, objs'[k]? = some q ∧ (i ≠ j → objs'[i]? = some ⟨o.addr, some s1, p.live, o.foreign⟩) ∧ objs'[j]? = some ⟨p.addr, some s2, o.live, p.foreign⟩) ∧
      ∀ x, x ≠ i → x ≠ j → x ≠ k → objs'[x]? = objs[x]? := by
  obtain ⟨a, so, L, R⟩ := o
  obtain ⟨b, sp, K, S⟩ := p
  obtain ⟨d, sq, J, Q⟩ := q
  cases hq
  cases hq'
  cases so with
  | none => cases ho
  | some s =>
  cases sp with
  | none => cases hp
  | some t =>
  have li : i < objs.length := (List.getElem?_eq_some_iff.1 hi).1
  have lj : j < objs.length := (List.getElem?_eq_some_iff.1 hj).1
  have lk : k < objs.length := (List.getElem?_eq_some_iff.1 hk).1
  have ki : k ≠ i := fun e => by subst e; rw [hi] at hk; simp at hk
  have kj : k ≠ j := fun e => by subst e; rw [hj] at hk; simp at hk
  simp only [MvOp.swap, mvrun, M.bind_apply] at h
  split at h
  case h_2 => cases h
  case h_3 => cases h
  rename_i o1 w1 e1
  obtain ⟨s1, s2, rfl⟩ := step_moveNew hk hi hc hr e1
  split at h
  case h_2 => cases h
  case h_3 => cases h
  rename_i o2 w2 e2
  split at h
  case h_2 => cases h
  case h_3 => cases h
  rename_i o3 w3 e3
  split at h
  case h_2 => cases h
  case h_3 => cases h
  rename_i o4 w4 e4
  injection h with h _
  subst h
  by_cases hij : i = j
  · subst hij
    rw [hi] at hj; cases hj
    obtain ⟨s3, rfl⟩ := step_self (a := a) (s := s2) (R := R) (by simp [li]) e2
    obtain ⟨s4, s5, rfl⟩ := step_moveTo (a := a) (b := d) (s := s1) (t := s3) (R := R) (L := L) (S := Q) ki.symm (by simp [li])
      (by simp [List.getElem?_set, lk, ki.symm]) hc hr e3
    have := step_destroy (a := d) (s := s5) (R := Q) (by simp [lk]) e4
    subst this
    refine ⟨by simp, ⟨s4, s4, by simp [lk], fun e => absurd rfl e, by simp [List.getElem?_set, ki, li]⟩, fun x h1 h2 h3 => ?_⟩
    simp [List.getElem?_set, h1.symm, h3.symm]
  · obtain ⟨s3, s4, rfl⟩ := step_moveTo (a := a) (b := b) (s := t) (t := s2) (R := R) (L := K) (S := S) hij (by simp [li])
      (by simp [List.getElem?_set, hij, kj, hj]) hc hr e2
    obtain ⟨s5, s6, rfl⟩ := step_moveTo (a := b) (b := d) (s := s1) (t := s4) (R := S) (L := L) (S := Q) kj.symm (by simp [lj])
      (by simp [List.getElem?_set, lk, ki.symm, kj.symm]) hc hr e3
    have := step_destroy (a := d) (s := s6) (R := Q) (by simp [lk]) e4
    subst this
    refine ⟨by simp, ⟨s3, s5, by simp [lk], fun _ => by simp [List.getElem?_set, ki, li, Ne.symm hij], by simp [List.getElem?_set, kj, lj]⟩, fun x h1 h2 h3 => ?_⟩
    simp [List.getElem?_set, h1.symm, h3.symm, h2.symm]

end

theorem AllocTy.assignable_movable : ∀ t : AllocTy, t.assignable = true → t.movable = true
  | .null, _ => rfl
  | .mallocator, _ => rfl
  | .linear _, _ => rfl
  | .stack _, h => h
  | .freelist _ _ A, h => AllocTy.assignable_movable A h
  | .fallback P F, h => by
    replace h : (P.assignable && F.assignable) = true := h
    rw [Bool.and_eq_true] at h
    show (P.movable && F.movable) = true
    rw [AllocTy.assignable_movable P h.1, AllocTy.assignable_movable F h.2]; rfl
  | .segragator _ P F, h => by
    replace h : (P.assignable && F.assignable) = true := h
    rw [Bool.and_eq_true] at h
    show (P.movable && F.movable) = true
    rw [AllocTy.assignable_movable P h.1, AllocTy.assignable_movable F h.2]; rfl
  | .cascading _, _ => rfl
  | .overflow _, h => nomatch h
  | .threaded _, h => nomatch h
  | .shared _, h => nomatch h
  | .reference _, h => nomatch h

/-- **C97, allocators.** In every reachable state of a program with any number of allocator objects of a type whose blocks move along with the
object (`carries`), `std::swap` of two of them, with the temporary at a free place `k`, exchanges the blocks that the client holds
of the two objects: afterwards each serves and takes back what the other one did (it is a state of the programs of C60, so it owns them, and they are given
back with it). All blocks keep their contents. Nothing else changes. The two may be the same object.

Missing: types with memory inside the object, whose blocks do not move along (`C97_linear_false`). -/
theorem C97_allocator_swap_partial (sys : Sys) (t : AllocTy) (hwf : t.WF) (has : t.assignable = true) (hc : (t.moves sys).carries = true)
    (bs : List Nat) (w : World) (hp : Places w t.size bs) (ops : List MvOp) (hops : MvSane t ops) (objs : List (MvObj (t.denote sys))) (w1 : World)
    (hrun : mvplay sys (t.moves sys) bs ops w = .ok objs w1) (i j k : Nat) (o p q : MvObj (t.denote sys))
    (hi : objs[i]? = some o) (hj : objs[j]? = some p) (hk : objs[k]? = some q) (ho : o.st.isSome = true) (hpo : p.st.isSome = true) (hq : q.st = none) :
    match mvrun sys (t.moves sys) objs (MvOp.swap i j k) w1 with
    | .ok objs' w2 =>
      objs'.map MvObj.live = ((objs.map MvObj.live).set i p.live).set j o.live ∧
      objs'.map (fun x => (x.addr, x.st.isSome, x.foreign)) = objs.map (fun x => (x.addr, x.st.isSome, x.foreign)) ∧
      (∀ x, x ≠ i → x ≠ j → objs'[x]? = objs[x]?) ∧
      ∀ a ∈ allBlocks objs, ∀ n (hn : n < a.2.length), w2.heap.b (a.1 + n) = some a.2[n]
    | .oom w2 => w2.failed = true
    | .ub => False := by
  have hmv := t.assignable_movable has
  have hall := C60_moves_partial sys t hwf hmv bs w hp (ops ++ MvOp.swap i j k) (fun _ => has) (fun x n h => by
    rcases List.mem_append.1 h with h | h
    · exact hops x n h
    · simp [MvOp.swap] at h)
  have hpl : mvplay sys (t.moves sys) bs (ops ++ MvOp.swap i j k) w = mvrun sys (t.moves sys) objs (MvOp.swap i j k) w1 := by
    unfold mvplay at hrun ⊢
    rw [mvrun_append, M.bind_apply, hrun]
  rw [hpl] at hall
  cases hr : mvrun sys (t.moves sys) objs (MvOp.swap i j k) w1 with
  | oom w2 => rw [hr] at hall; exact hall
  | ub => rw [hr] at hall; exact hall
  | ok objs' w2 =>
    rw [hr] at hall
    -- the place of the temporary
    have hq' : q.live = [] := by
      have := mvhistory sys t hwf hmv bs w hp ops (fun _ => has) (fun i n h => ⟨by have := (hops i n h).2; omega, t.fits_of_margin sys.plat hwf n (hops i n h).1 (hops i n h).2⟩)
      rw [hrun] at this
      obtain ⟨h, _, _, _, hI, _⟩ := this
      rw [objsInv_perm _ (perm_eraseIdx hk), objsInv] at hI
      obtain ⟨h1, h2, _, _, ⟨_, h3, h4, _, _, h5, _⟩, _⟩ := hI
      rw [hq] at h5
      exact h5.1
    obtain ⟨hlen, ⟨s1, s2, r1, r2, r3⟩, r4⟩ := mvswap_book hc (t.ready_of_carries sys hc) hi hj hk ho hpo hq hq' hr
    have ki : k ≠ i := fun e => by subst e; rw [hi] at hk; cases hk; rw [hq] at ho; cases ho
    have kj : k ≠ j := fun e => by subst e; rw [hj] at hk; cases hk; rw [hq] at hpo; cases hpo
    have hx : ∀ x, x ≠ i → x ≠ j → objs'[x]? = objs[x]? := fun x h1 h2 => by
      by_cases h3 : x = k
      · subst h3; rw [r1, hk]
      · exact r4 x h1 h2 h3
    have li : i < objs.length := (List.getElem?_eq_some_iff.1 hi).1
    have lj : j < objs.length := (List.getElem?_eq_some_iff.1 hj).1
    have hL : objs'.map MvObj.live = ((objs.map MvObj.live).set i p.live).set j o.live := by
      apply List.ext_getElem?
      intro x
      rw [List.getElem?_map, List.getElem?_set, List.getElem?_set, List.getElem?_map]
      by_cases h2 : j = x
      · subst h2; simp [lj, r3]
      · by_cases h1 : i = x
        · subst h1; simp [li, r2 (fun e => h2 e.symm), h2]
        · rw [hx x (fun e => h1 e.symm) (fun e => h2 e.symm)]; simp [h1, h2]
    refine ⟨hL, ?_, hx, fun a ha n hn => hall.2.1 a ?_ n hn⟩
    · apply List.ext_getElem?
      intro x
      rw [List.getElem?_map, List.getElem?_map]
      by_cases h2 : j = x
      · subst h2; rw [r3, hj]; simp [hpo]
      · by_cases h1 : i = x
        · subst h1; rw [r2 (fun e => h2 e.symm), hi]; simp [ho]
        · rw [hx x (fun e => h1 e.symm) (fun e => h2 e.symm)]
    · unfold allBlocks at ha ⊢
      rw [List.mem_flatMap] at ha ⊢
      obtain ⟨z, hz, hza⟩ := ha
      obtain ⟨x, hzx⟩ := List.mem_iff_getElem?.1 hz
      rw [List.mem_append] at hza
      have mi : ∃ z', objs'[i]? = some z' ∧ z'.foreign = o.foreign ∧ z'.live = p.live := by
        by_cases e : i = j
        · subst e; rw [hi] at hj; cases hj; exact ⟨_, r3, rfl, rfl⟩
        · exact ⟨_, r2 e, rfl, rfl⟩
      obtain ⟨z', m1, m2, m3⟩ := mi
      by_cases h2 : j = x
      · subst h2
        rw [hj] at hzx; cases hzx
        rcases hza with h | h
        · exact ⟨z', List.mem_of_getElem? m1, List.mem_append.2 (.inl (by rw [m3]; exact h))⟩
        · exact ⟨_, List.mem_of_getElem? r3, List.mem_append.2 (.inr h)⟩
      · by_cases h1 : i = x
        · subst h1
          rw [hi] at hzx; cases hzx
          rcases hza with h | h
          · exact ⟨_, List.mem_of_getElem? r3, List.mem_append.2 (.inl h)⟩
          · exact ⟨z', List.mem_of_getElem? m1, List.mem_append.2 (.inr (by rw [m2]; exact h))⟩
        · exact ⟨z, List.mem_of_getElem? (by rw [hx x (fun e => h1 e.symm) (fun e => h2 e.symm)]; exact hzx), List.mem_append.2 hza⟩

/-- two `linear_allocator`s are exchanged while the client holds a block of the first one, then the first one is used again -/
def swappedLinear : M (Nat × Nat) := do
  let s0 ← (linear 64).init 4096
  let s1 ← (linear 64).init 4176
  let x ← (linear 64).alloc s0 16
  let t ← (Moves.linear 64).ctor 4256 x.2
  let y ← (Moves.linear 64).assign t.2 s1
  let _ ← (Moves.linear 64).assign y.2 t.1
  let z ← (linear 64).alloc y.1 16
  pure (x.1, z.1)

/-- **C97 is false for `linear_allocator`**, whose blocks do not move along: after `std::swap` a block that the client holds is handed out a second time. -/
theorem C97_linear_false : (swappedLinear (demoWorld 256)).test (fun r _ => decide (r.1 = 4096 ∧ r.2 = 4096)) = true := by decide +kernel

/-! ### Examples -/

example : demoMvTy.assignable = true ∧ (demoMvTy.moves (demoSys .direct)).carries = true := ⟨by decide, rfl⟩

/-- two objects with blocks are exchanged, and each gives back a block of the other one -/
def demoSwapOps : List MvOp :=
  [.create 0, .create 1, .use 0 (.allocate 24), .use 1 (.allocate 8), .use 1 (.allocate 16), .use 1 (.write 0 3 7)]

example : MvSane demoMvTy demoSwapOps := by
  intro i n h
  simp [demoSwapOps] at h
  rcases h with ⟨_, rfl⟩ | ⟨_, rfl⟩ | ⟨_, rfl⟩ <;> decide
example : (AllocTy.cascading (.linear 64)).assignable = true ∧ ((AllocTy.cascading (.linear 64)).moves (demoSys .direct)).carries = true := ⟨by decide, rfl⟩
example : ((mvplay (demoSys .direct) ((AllocTy.cascading (.linear 64)).moves (demoSys .direct)) [4096, 4128, 4160]
    (demoSwapOps ++ MvOp.swap 0 1 2 ++ [.use 0 (.deallocate 0), .use 1 (.allocate 40)]) (demoWorld 96)).test
    fun objs _ => decide (objs.map (fun o => o.live.map (fun a => a.2.length)) = [[8], [40, 24], []])) = true := by decide +kernel
/-- vectors -/
example : ((vplay 1 (mallocator (demoSys .direct)) 4096 ([.newRange [[1], [2]], .newRange [[3]]] ++ VOp.swap 0 1 2 ++ [.read 0 0, .push 1 [9], .read 1 2] ++ VOp.swap 1 1 2 ++
    [.read 1 1]) (demoWorld 32)).test
    fun c _ => decide (c.seen = [[3], [9], [9], [2]])) = true := by decide +kernel
/-- vectors over two reference counted allocators -/
example : ((do
      let c ← ShVecs.run (demoSys .direct) 1 (A := linear 64) ⟨[], [], []⟩ [.fresh, .use 0 (.push 0 [5]), .fresh, .use 1 (.push 0 [6])]
      let c ← c.swap (demoSys .direct) 1 0 1
      let c ← c.swap (demoSys .direct) 1 0 0
      c.run (demoSys .direct) 1 [.use 0 (.read 0 0), .destroy 0]) (demoWorld 16)).test
    (fun c _ => decide (c.vs.map Prod.fst = [0] ∧ c.seen = [[5], [6], [6]] ∧ c.bl.map Option.isSome = [true, false])) = true := by decide +kernel

end KTL
