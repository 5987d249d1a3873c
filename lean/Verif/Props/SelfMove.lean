import Verif.Props.Move
import Verif.Props.Shared
import Verif.Containers.SharedVector
import Verif.Containers.Array
import Verif.Containers.BinaryHeap

/- C87: `x = std::move(x)`. -/
namespace KTL

/-- The allocator classes whose blocks survive `x = std::move(x)`: those that have no memory of their own inside the object or in nodes. -/
def AllocTy.survives : AllocTy → Bool
  | null => true
  | mallocator => true
  | freelist _ _ A => A.survives
  | fallback P F => P.survives && F.survives
  | segragator _ P F => P.survives && F.survives
  | _ => false

theorem AllocTy.keeps_eq (sys : Sys) (t : AllocTy) : (t.moves sys).keeps = t.survives := by
  induction t with
  | freelist m M A ih => exact ih
  | fallback P F ih1 ih2 => show ((P.moves sys).keeps && (F.moves sys).keeps) = _; rw [ih1, ih2]; rfl
  | segragator T P F ih1 ih2 => show ((P.moves sys).keeps && (F.moves sys).keeps) = _; rw [ih1, ih2]; rfl
  | _ => rfl

/-- An allocator object serves `ops`, is move assigned to itself, and serves `ops'`. The client before and after. -/
def selfMoved (sys : Sys) (t : AllocTy) (b : Nat) (ops ops' : List Op) : M (Client (t.denote sys) × Client (t.denote sys)) := do
  let c ← play sys (t.denote sys) b ops
  let s ← (t.moves sys).self c.st
  let d ← Client.run sys { c with st := s } ops'
  pure (c, d)

theorem selfMoved_spec (sys : Sys) (t : AllocTy) (hwf : t.WF) (has : t.assignable = true) (b : Nat) (w : World) (hs : Storage w b t.size)
    (ops ops' : List Op) (h1 : Sane t ops) (h2 : Sane t ops')
    (hk : ∀ c w', play sys (t.denote sys) b ops w = .ok c w' → c.live = [] ∨ t.survives = true) :
    match selfMoved sys t b ops ops' w with
    | .ok r w' => (∃ h hf, Heap.disj h hf ∧ w'.heap = h.add hf ∧ ClientInv (t.sound sys hwf) b r.2 h ∧
        (∀ x, hf.b x = if b ≤ x ∧ x < b + t.size then none else w.heap.b x) ∧ hf.t = w.heap.t) ∧ (ops' = [] → r.2.live = r.1.live)
    | .oom w' => w'.failed = true
    | .ub => False := by
  have := history sys t hwf b w hs ops (h1.fits sys hwf)
  cases hp : play sys (t.denote sys) b ops w with
  | oom w1 =>
    rw [hp] at this
    have e : selfMoved sys t b ops ops' w = .oom w1 := by unfold selfMoved; rw [M.bind_apply, hp]
    rw [e]; exact this
  | ub => rw [hp] at this; exact this.elim
  | ok c w1 =>
    rw [hp] at this
    obtain ⟨h, hf, hd, he, hI, hfb, hft, _⟩ := this
    have key : Triple (ClientInv (t.sound sys hwf) b c) (do
        let s ← (t.moves sys).self c.st
        let d ← Client.run sys { c with st := s } ops'
        pure (c, d) : M (Client (t.denote sys) × Client (t.denote sys)))
        (fun r h => ClientInv (t.sound sys hwf) b r.2 h ∧ (ops' = [] → r.2.live = r.1.live)) := by
      unfold ClientInv
      rw [← star_assoc]
      refine Triple.bind (((t.assigns sys hwf has).self_spec b c.st c.live (by rw [t.keeps_eq]; exact hk c w1 hp)).frame _) (fun s => ?_)
      rw [star_assoc]
      cases ops' with
      | nil =>
        show Triple _ (pure (c, { c with st := s }) : M (Client (t.denote sys) × Client (t.denote sys))) _
        exact Triple.pure _ (fun h hh => ⟨hh, fun _ => rfl⟩)
      | cons o os =>
        refine Triple.bind (run_spec sys (t.sound sys hwf) b (o :: os) { c with st := s } (h2.fits sys hwf)) (fun d => ?_)
        exact Triple.pure _ (fun h hh => ⟨hh, fun h => by cases h⟩)
    have := key w1 h hf hd he hI
    have e : selfMoved sys t b ops ops' w = (do
        let s ← (t.moves sys).self c.st
        let d ← Client.run sys { c with st := s } ops'
        pure (c, d) : M (Client (t.denote sys) × Client (t.denote sys))) w1 := by
      unfold selfMoved; rw [M.bind_apply, hp]
    rw [e]
    split
    · rename_i r w2 hr
      rw [hr] at this
      obtain ⟨⟨h', hd', he', hi, hl⟩, _⟩ := this
      exact ⟨⟨h', hf, hd', he', hi, hfb, hft⟩, hl⟩
    · rename_i w2 hr
      rw [hr] at this; exact this
    · rename_i hr
      rw [hr] at this; exact this

/-- **C87, partial.** An allocator object of any composed type with a move assignment serves requests, is assigned to itself by
`x = std::move(x)`, and serves further requests. If the client holds no blocks at that moment, or the type has no memory of its own inside the
object or in nodes (`survives`), there is no undefined behaviour. The client still holds all its blocks with their contents. Blocks it gets
afterwards do not overlap with them. Memory of others is untouched. When it has returned all blocks, the destructor gives back
everything that was ever obtained.

Missing: blocks of other types, which do not survive (`C87_linear_false`, `C87_cascading_false`). -/
theorem C87_self_move_partial (sys : Sys) (t : AllocTy) (hwf : t.WF) (has : t.assignable = true) (b : Nat) (w : World) (hs : Storage w b t.size)
    (ops ops' : List Op) (h1 : Sane t ops) (h2 : Sane t ops')
    (hk : ∀ c w', play sys (t.denote sys) b ops w = .ok c w' → c.live = [] ∨ t.survives = true) :
    match selfMoved sys t b ops ops' w with
    | .ok r w' =>
      (ops' = [] → r.2.live = r.1.live) ∧
      (r.2.live ++ r.2.foreign).Pairwise (fun a d => ∀ x, ¬ ((a.1 ≤ x ∧ x < a.1 + a.2.length) ∧ (d.1 ≤ x ∧ x < d.1 + d.2.length))) ∧
      (∀ a ∈ r.2.live ++ r.2.foreign, ∀ i (hi : i < a.2.length), w'.heap.b (a.1 + i) = some a.2[i]) ∧
      (∀ x v, ¬ (b ≤ x ∧ x < b + t.size) → w.heap.b x = some v → w'.heap.b x = some v) ∧
      (r.2.live = [] → match (t.denote sys).fini r.2.st w' with
        | .ok _ w'' =>
          (∀ x, b ≤ x → x < b + t.size → (w''.heap.b x).isSome = true) ∧
          (∀ x, (∀ f ∈ r.2.foreign, x ≠ f.1) → w''.heap.t x = w.heap.t x) ∧
          (∀ x, ¬ (b ≤ x ∧ x < b + t.size) → (∀ f ∈ r.2.foreign, ¬ (f.1 ≤ x ∧ x < f.1 + f.2.length)) → w''.heap.b x = w.heap.b x)
        | .oom w'' => w''.failed = true
        | .ub => False)
    | .oom w' => w'.failed = true
    | .ub => False := by
  have := selfMoved_spec sys t hwf has b w hs ops ops' h1 h2 hk
  split
  · rename_i r w' hr
    rw [hr] at this
    obtain ⟨⟨h, hf, hd, he, hI, hfb, hft⟩, hl⟩ := this
    have hI' := hI
    obtain ⟨g1, g2, hd1, rfl, hI1, g3, g4, hd2, rfl, hL, hF⟩ := hI'
    obtain ⟨k1, k2, hdg, rfl, hg⟩ := foreignV_blocks hF
    have d := Heap.disj_add_right.1 hd2
    have hall : blocksV (r.2.live ++ r.2.foreign) (g3.add k1) := by
      rw [blocksV_append]; exact ⟨g3, k1, d.1, rfl, hL, hg⟩
    refine ⟨hl, blocksV_pairwise hall, fun a ha i hi => ?_, fun x v hx hv => ?_, fun hempty => ?_⟩
    · have e := blocksV_mem hall (show (a.1, a.2) ∈ _ from ha) i hi
      have e2 : ((g3.add (k1.add k2)).b (a.1 + i)) = some a.2[i] := by
        rw [← Heap.add_assoc, Heap.add_b, e]; rfl
      rw [he]
      have e3 : (g1.add (g3.add (k1.add k2))).b (a.1 + i) = some a.2[i] := by
        rcases hd1.1 (a.1 + i) with q | q
        · simp [q, ← e2]
        · rw [q] at e2; cases e2
      rw [Heap.add_b, e3]; rfl
    · have e : hf.b x = some v := by rw [hfb]; simp only [hx, if_false]; exact hv
      rw [he]
      rcases hd.1 x with e' | e' <;> simp_all
    · exact fini_returns sys t hwf b w w' r.2 _ hf hd he hI hfb hft hempty
  · rename_i w' hr
    rw [hr] at this; exact this
  · rename_i hr
    rw [hr] at this; exact this

/-! ### What does not hold -/

/-- **C87 is false for `linear_allocator`**, for every size and every history: after `x = std::move(x)` the next block that is served starts
at the beginning of the memory, whatever the client holds. -/
theorem C87_linear_false (Size n : Nat) (s s' : (linear Size).St) (w w' : World) (p : Nat) (s'' : (linear Size).St) (w'' : World)
    (h1 : (Moves.linear Size).self s w = .ok s' w') (h2 : (linear Size).alloc s' n w' = .ok (p, s'') w'') (hp : p ≠ 0) : p = s.base := by
  have e : s' = (⟨s.base, s.base, s.count⟩ : Linear.St) := by
    have : (Res.ok (⟨s.base, s.base, s.count⟩ : Linear.St) w : Res Linear.St) = .ok s' w' := h1
    injection this with e _; exact e.symm
  subst e
  simp only [linear, Linear.alloc] at h2
  split at h2 <;> injection h2 with e _ <;> injection e with e _ <;> first | exact absurd e.symm hp | exact e.symm

/-- The same as a program: a client of `linear_allocator<64>` holds two blocks at one address. -/
theorem C87_linear_false_program : ((selfMoved (demoSys .direct) (.linear 64) 4096 [.allocate 16] [.allocate 16] (demoWorld 80)).test
    fun r _ => decide (r.2.live.map Prod.fst = [4096, 4096])) = true := by decide +kernel

/-- **C87 is false for `cascading`**: a block that the client holds is given back to `malloc` with the node it lies in. Reading it is an
access to freed memory. -/
theorem C87_cascading_false : ((selfMoved (demoSys .direct) (.cascading (.linear 64)) 4096 [.allocate 16] [] (demoWorld 80)).test
    fun r w => decide (r.2.live.length = 1 ∧ ∀ a ∈ r.2.live, w.heap.b a.1 = none)) = true := by decide +kernel

/-- **C87 is false for `shared` handles**: whenever `h = std::move(h)` completes, `h` is null afterwards, and a call through it
dereferences a null pointer. If it was the only handle, the allocator is gone. -/
theorem C87_shared_false (s s' : Shared) (i b : Nat) (hi : s.ptrs[i]? = some (some b)) (h : s.step (.moveAssign i i) = some s') :
    s'.ptrs[i]? = some none ∧ (s.counts b = some 1 → s'.counts b = none ∧ BEv.delete b ∈ s'.log) := by
  have hlt : i < s.ptrs.length := (List.getElem?_eq_some_iff.1 hi).1
  simp only [Shared.step, hi, Shared.decrement, Option.bind_eq_bind] at h
  cases hc : s.counts b with
  | none => rw [hc] at h; cases h
  | some n =>
    rw [hc] at h
    dsimp only at h
    split at h
    · rename_i h1
      subst h1
      simp only [Option.bind_some, Option.some.injEq] at h
      subst h
      refine ⟨?_, fun _ => ⟨by simp [Shared.setCount], by simp⟩⟩
      simp [Shared.setCount, hlt]
    · rename_i h1
      simp only [Option.bind_some, Option.some.injEq] at h
      subst h
      refine ⟨?_, fun e => absurd (Option.some.inj e) h1⟩
      simp [Shared.setCount, hlt]

/-- **C87 is false for `trivial_vector`**: whenever `v = std::move(v)` completes, `v` has lost its elements. -/
theorem C87_vector_false (sz : Nat) {A : Allocator} (c c' : Vecs A) (i : Nat) (v : Vec) (hi : c.vs[i]? = some v) (w w' : World)
    (h : c.moveAssign sz i i w = .ok c' w') : ∃ v', c'.vs[i]? = some v' ∧ v'.size sz = 0 := by
  have hlt : i < c.vs.length := (List.getElem?_eq_some_iff.1 hi).1
  simp only [Vecs.moveAssign, hi, M.bind_apply] at h
  split at h
  · injection h with h _
    subst h
    refine ⟨Vec.null, ?_, by simp [Vec.size, Vec.null]⟩
    simp [hlt]
  · cases h
  · cases h

/-- The same for `trivial_array`. -/
theorem C87_array_false (sz : Nat) {A : Allocator} (c c' : Arrs A) (i : Nat) (v : Arr) (hi : c.vs[i]? = some v) (w w' : World)
    (h : c.moveAssign sz i i w = .ok c' w') : ∃ v', c'.vs[i]? = some v' ∧ v'.size sz = 0 := by
  have hlt : i < c.vs.length := (List.getElem?_eq_some_iff.1 hi).1
  simp only [Arrs.moveAssign, hi, M.bind_apply] at h
  split at h
  · injection h with h _
    subst h
    refine ⟨Arr.null, ?_, by simp [Arr.size, Arr.null]⟩
    simp [hlt]
  · cases h
  · cases h

/-- The same for `binary_heap`. -/
theorem C87_heap_false {α : Type} (E : Elt α) {A : Allocator} (c c' : BHeaps A α) (i : Nat) (v : BHeap) (hi : c.hs[i]? = some v) (w w' : World)
    (h : c.moveAssign E i i w = .ok c' w') : ∃ v', c'.hs[i]? = some v' ∧ v'.size = 0 := by
  have hlt : i < c.hs.length := (List.getElem?_eq_some_iff.1 hi).1
  simp only [BHeaps.moveAssign, hi, M.bind_apply] at h
  split at h
  · injection h with h _
    subst h
    refine ⟨BHeap.null, ?_, rfl⟩
    simp [hlt]
  · cases h
  · cases h

/-- **C87 is false for vectors over `shared` allocators**, and worse: if the vector is the only one with a handle of its allocator,
`v = std::move(v)` never completes. `type_allocator` moves by copying, so the handle is copied to itself, which deletes the allocator and
increments the counter in the freed memory (C25). -/
theorem C87_shared_vector_false (sys : Sys) (sz : Nat) {A : Allocator} (c : ShVecs A) (i k : Nat) (v : Vec) (B : ShBlock A)
    (hB : c.bl[k]? = some (some B)) (h1 : B.count = 1) (w w' : World) (c' : ShVecs A) :
    c.moveAssign sys sz i k v i k v w ≠ .ok c' w' := by
  intro h
  have hlt : k < c.bl.length := (List.getElem?_eq_some_iff.1 hB).1
  simp only [ShVecs.moveAssign, ShVecs.free, ShBlocks.use, hB, M.bind_apply] at h
  cases hv : v.destroy sz A B.st w with
  | oom _ => rw [hv] at h; cases h
  | ub => rw [hv] at h; cases h
  | ok s1 w1 =>
    rw [hv] at h
    simp only [M.pure_apply, ShBlocks.assign, ShBlocks.decrement, List.getElem?_set, hlt, if_true, h1, M.bind_apply] at h
    cases ha : alignedDelete sys B.addr (A.fini s1) w1 with
    | oom _ => rw [ha] at h; cases h
    | ub => rw [ha] at h; cases h
    | ok s2 w2 =>
      rw [ha] at h
      simp [ShBlocks.increment, hlt, M.ub] at h

/-! ### Examples -/

/-- a type with blocks that survive -/
def demoSelfTy : AllocTy := .segragator 16 (.freelist 0 16 .mallocator) .mallocator

example : demoSelfTy.WF ∧ demoSelfTy.assignable = true ∧ demoSelfTy.survives = true := by decide
example : Storage (demoWorld 16) 4096 demoSelfTy.size := demoStorage 16 (by decide)
example : Sane demoSelfTy [.allocate 16, .allocate 8, .deallocate 0, .write 0 0 7] := by
  intro n hn
  simp only [List.mem_cons, Op.allocate.injEq, reduceCtorEq, List.not_mem_nil, or_false] at hn
  rcases hn with rfl | rfl <;> decide

/-- a type whose blocks do not survive, when the client holds none -/
example : (AllocTy.cascading (.linear 64)).WF ∧ (AllocTy.cascading (.linear 64)).assignable = true ∧
    (AllocTy.cascading (.linear 64)).survives = false := by decide
example : ((selfMoved (demoSys .direct) (.cascading (.linear 64)) 4096 [.allocate 16, .deallocate 0] [.allocate 24] (demoWorld 80)).test
    fun r _ => decide (r.1.live = [] ∧ r.2.live.length = 1)) = true := by decide +kernel

/-- the only vector over a `shared` allocator is moved to itself -/
example : ((do
    let c ← ShVecs.run (demoSys .direct) 4 (A := linear 64) ⟨[], [], []⟩ [.fresh, .use 0 (.push 0 [1, 2, 3, 4])]
    c.moveAssign (demoSys .direct) 4 0 0 (c.vs.headD (0, Vec.null)).2 0 0 (c.vs.headD (0, Vec.null)).2) (demoWorld 16)).isUB = true := by
  decide +kernel

end KTL
