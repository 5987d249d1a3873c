import Verif.Props.Move
import Verif.Spec.Global

/- C88: `global<Alloc>` with `set_allocator` and `get_allocator`. -/
namespace KTL

/-! ### Proofs: a program with a global allocator is a program with one more object -/

/-- the same step when there is one more place in front -/
def MvOp.shift : MvOp → MvOp
  | .create i => .create (i + 1)
  | .moveNew i j => .moveNew (i + 1) (j + 1)
  | .moveTo i j => .moveTo (i + 1) (j + 1)
  | .use i o => .use (i + 1) o
  | .destroy i => .destroy (i + 1)

/-- the places of a program, the static object first -/
def GlProg.objs {A : Allocator} (p : GlProg A) : List (MvObj A) := ⟨p.addr, some p.g.obj, p.live, p.foreign⟩ :: p.locals

/-- a step with `n` instances, as steps of a program with one more object -/
def GlOp.tr (n : Nat) : GlOp → List MvOp × Nat
  | .instance => ([], n + 1)
  | .drop => ([], n - 1)
  | .call i o => (if i < n then [.use 0 o] else [], n)
  | .set i j => (if i < n then [.moveTo 0 (j + 1)] else [], n)
  | .setSelf i k => (if i < n ∧ k < n then [.moveTo 0 0] else [], n)
  | .take i j => (if i < n then [.moveNew (j + 1) 0] else [], n)
  | .local o => ([o.shift], n)

/-- the program with one more object -/
def glTr (n : Nat) : List GlOp → List MvOp
  | [] => []
  | o :: os => (o.tr n).1 ++ glTr (o.tr n).2 os

theorem step_shift (sys : Sys) {A : Allocator} (m : Moves A) (x : MvObj A) (objs : List (MvObj A)) (o : MvOp) :
    o.shift.step sys m (x :: objs) = (o.step sys m objs >>= fun l => pure (x :: l)) := by
  funext w
  cases o with
  | create i =>
    simp only [MvOp.shift, MvOp.step, List.getElem?_cons_succ]
    rcases objs[i]? with _ | ⟨a, _ | s, L, R⟩ <;> simp only [M.bind_apply, M.pure_apply, List.set_cons_succ]
    cases A.init a w <;> rfl
  | moveNew i j =>
    simp only [MvOp.shift, MvOp.step, List.getElem?_cons_succ]
    rcases objs[i]? with _ | ⟨a, _ | s, L, R⟩ <;> rcases objs[j]? with _ | ⟨b, _ | t, K, S⟩ <;>
      simp only [M.bind_apply, M.pure_apply, List.set_cons_succ]
    split
    · simp only [M.bind_apply]; cases m.ctor a t w <;> rfl
    · rfl
  | moveTo i j =>
    simp only [MvOp.shift, MvOp.step, List.getElem?_cons_succ]
    rcases objs[i]? with _ | ⟨a, _ | s, L, R⟩ <;> rcases objs[j]? with _ | ⟨b, _ | t, K, S⟩ <;>
      simp only [M.bind_apply, M.pure_apply, List.set_cons_succ, Nat.add_right_cancel_iff]
    split
    · split
      · simp only [M.bind_apply]; cases m.self t w <;> rfl
      · rfl
    · split
      · simp only [M.bind_apply]; cases m.assign s t w <;> rfl
      · rfl
  | use i o =>
    simp only [MvOp.shift, MvOp.step, List.getElem?_cons_succ]
    rcases objs[i]? with _ | ⟨a, _ | s, L, R⟩ <;> simp only [M.bind_apply, M.pure_apply, List.set_cons_succ]
    cases Client.step sys (A := A) { st := s, live := L, foreign := R } o w <;> rfl
  | destroy i =>
    simp only [MvOp.shift, MvOp.step, List.getElem?_cons_succ]
    rcases objs[i]? with _ | ⟨a, _ | s, L, R⟩ <;> simp only [M.bind_apply, M.pure_apply, List.set_cons_succ]
    split
    · simp only [M.bind_apply]; cases A.fini s w <;> rfl
    · rfl

theorem gl_step (sys : Sys) {A : Allocator} (m : Moves A) (p : GlProg A) (o : GlOp) (w : World) :
    match o.step sys m p w with
    | .ok p' w' => mvrun sys m p.objs (o.tr p.g.instances).1 w = .ok p'.objs w' ∧ p'.g.instances = (o.tr p.g.instances).2 ∧ p'.addr = p.addr
    | .oom w' => mvrun sys m p.objs (o.tr p.g.instances).1 w = .oom w'
    | .ub => mvrun sys m p.objs (o.tr p.g.instances).1 w = .ub := by
  obtain ⟨addr, ⟨obj, n⟩, live, foreign, locals⟩ := p
  cases o with
  | «instance» => exact ⟨rfl, rfl, rfl⟩
  | drop => exact ⟨rfl, rfl, rfl⟩
  | call i o =>
    simp only [GlOp.step, GlOp.tr, GlProg.objs]
    by_cases h : i < n
    · simp only [h, if_true, mvrun, MvOp.step, List.getElem?_cons_zero, M.bind_apply]
      cases Client.step sys (A := A) { st := obj, live := live, foreign := foreign } o w <;> simp [M.bind_apply, M.pure_apply]
    · simp only [h, if_false]
      exact ⟨rfl, rfl, rfl⟩
  | set i j =>
    simp only [GlOp.step, GlOp.tr, GlProg.objs]
    by_cases h : i < n
    · simp only [h, if_true, mvrun, MvOp.step, List.getElem?_cons_zero, List.getElem?_cons_succ, M.bind_apply, true_and]
      rcases locals[j]? with _ | ⟨b, _ | s, L, S⟩
      · exact ⟨rfl, rfl, rfl⟩
      · exact ⟨rfl, rfl, rfl⟩
      · have ne : ¬ 0 = j + 1 := by omega
        dsimp only
        rw [if_neg ne]
        by_cases hc : live = [] ∧ m.ready s = true ∧ (L = [] ∨ m.carries = true)
        · rw [if_pos hc, if_pos hc, M.bind_apply, M.bind_apply]
          unfold Globals.setAllocator
          rw [M.bind_apply]
          cases m.assign obj s w <;> simp [M.pure_apply]
        · simp only [if_neg hc]
          exact ⟨rfl, rfl, rfl⟩
    · simp only [h, if_false, false_and]
      rcases locals[j]? with _ | ⟨b, _ | s, L, S⟩ <;> exact ⟨rfl, rfl, rfl⟩
  | setSelf i k =>
    simp only [GlOp.step, GlOp.tr, GlProg.objs]
    by_cases h : i < n ∧ k < n
    · simp only [h, if_true, mvrun, MvOp.step, List.getElem?_cons_zero, M.bind_apply, true_and, and_self]
      by_cases hc : live = [] ∨ m.keeps = true
      · simp only [if_pos hc, Globals.setSelf, M.bind_apply]
        cases m.self obj w <;> simp [M.pure_apply]
      · simp only [if_neg hc]
        exact ⟨rfl, rfl, rfl⟩
    · simp only [h, if_false]
      rw [if_neg (fun hh => h ⟨hh.1, hh.2.1⟩)]
      exact ⟨rfl, rfl, rfl⟩
  | take i j =>
    simp only [GlOp.step, GlOp.tr, GlProg.objs]
    by_cases h : i < n
    · simp only [h, if_true, mvrun, MvOp.step, List.getElem?_cons_zero, List.getElem?_cons_succ, M.bind_apply, true_and]
      rcases locals[j]? with _ | ⟨b, _ | s, L, S⟩
      · exact ⟨rfl, rfl, rfl⟩
      · by_cases hc : m.ready obj = true ∧ (live = [] ∨ m.carries = true)
        · simp only [if_pos hc, Globals.take, M.bind_apply]
          cases m.ctor b obj w <;> simp [M.pure_apply]
        · simp only [if_neg hc]
          exact ⟨rfl, rfl, rfl⟩
      · exact ⟨rfl, rfl, rfl⟩
    · simp only [h, if_false, false_and]
      rcases locals[j]? with _ | ⟨b, _ | s, L, S⟩ <;> exact ⟨rfl, rfl, rfl⟩
  | «local» o =>
    simp only [GlOp.step, GlOp.tr, GlProg.objs, mvrun]
    rw [M.bind_apply, M.bind_apply, step_shift, M.bind_apply]
    cases o.step sys m locals w <;> simp [M.pure_apply]

theorem mvrun_append (sys : Sys) {A : Allocator} (m : Moves A) (xs ys : List MvOp) (objs : List (MvObj A)) :
    mvrun sys m objs (xs ++ ys) = (mvrun sys m objs xs >>= fun o => mvrun sys m o ys) := by
  induction xs generalizing objs with
  | nil => rfl
  | cons x xs ih =>
    funext w
    simp only [List.cons_append, mvrun, M.bind_apply]
    cases x.step sys m objs w with
    | ok o w1 => simp only [ih]; rfl
    | oom w1 => rfl
    | ub => rfl

theorem gl_run (sys : Sys) {A : Allocator} (m : Moves A) (ops : List GlOp) (p : GlProg A) (w : World) :
    match glrun sys m p ops w with
    | .ok p' w' => mvrun sys m p.objs (glTr p.g.instances ops) w = .ok p'.objs w' ∧ p'.addr = p.addr
    | .oom w' => mvrun sys m p.objs (glTr p.g.instances ops) w = .oom w'
    | .ub => mvrun sys m p.objs (glTr p.g.instances ops) w = .ub := by
  induction ops generalizing p w with
  | nil => exact ⟨rfl, rfl⟩
  | cons o os ih =>
    have h := gl_step sys m p o w
    unfold glrun glTr
    rw [M.bind_apply, mvrun_append, M.bind_apply]
    cases hs : o.step sys m p w with
    | oom w' => rw [hs] at h; dsimp only at h; rw [h]
    | ub => rw [hs] at h; dsimp only at h; rw [h]
    | ok p' w' =>
      rw [hs] at h
      dsimp only at h ⊢
      rw [h.1, ← h.2.1, ← h.2.2]
      exact ih p' w'

theorem gl_play (sys : Sys) {A : Allocator} (m : Moves A) (a : Nat) (bs : List Nat) (ops : List GlOp) (w : World) :
    match glplay sys m a bs ops w with
    | .ok p w' => mvplay sys m (a :: bs) (.create 0 :: glTr 0 ops) w = .ok p.objs w' ∧ p.addr = a
    | .oom w' => mvplay sys m (a :: bs) (.create 0 :: glTr 0 ops) w = .oom w'
    | .ub => mvplay sys m (a :: bs) (.create 0 :: glTr 0 ops) w = .ub := by
  unfold glplay mvplay
  simp only [mvrun, List.map_cons, MvOp.step, List.getElem?_cons_zero, M.bind_apply]
  cases hi : A.init a w with
  | oom w' => rfl
  | ub => rfl
  | ok s w1 => exact gl_run sys m ops ⟨a, ⟨s, 0⟩, [], [], bs.map fun b => ⟨b, none, [], []⟩⟩ w1

theorem glTr_use {ops : List GlOp} {n i k : Nat} (h : MvOp.use i (.allocate k) ∈ glTr n ops) :
    (∃ i, .call i (.allocate k) ∈ ops) ∨ ∃ i, .local (.use i (.allocate k)) ∈ ops := by
  induction ops generalizing n with
  | nil => cases h
  | cons o os ih =>
    simp only [glTr, List.mem_append] at h
    rcases h with h | h
    · cases o with
      | call j o =>
        simp only [GlOp.tr] at h
        split at h
        · simp only [List.mem_singleton, MvOp.use.injEq] at h
          exact .inl ⟨j, by rw [h.2]; exact List.mem_cons_self⟩
        · cases h
      | «local» o =>
        simp only [GlOp.tr, List.mem_singleton] at h
        cases o with
        | use j o =>
          simp only [MvOp.shift, MvOp.use.injEq] at h
          exact .inr ⟨j, by rw [h.2]; exact List.mem_cons_self⟩
        | _ => simp only [MvOp.shift, reduceCtorEq] at h
      | «instance» => cases h
      | drop => cases h
      | set => simp only [GlOp.tr] at h; split at h <;> simp at h
      | setSelf => simp only [GlOp.tr] at h; split at h <;> simp at h
      | take => simp only [GlOp.tr] at h; split at h <;> simp at h
    · rcases ih h with ⟨j, hj⟩ | ⟨j, hj⟩
      · exact .inl ⟨j, List.mem_cons_of_mem _ hj⟩
      · exact .inr ⟨j, List.mem_cons_of_mem _ hj⟩

/-- Requests of a program are not empty and so small that no size computation wraps around 2^64. -/
def GlSane (t : AllocTy) (ops : List GlOp) : Prop :=
  ∀ n, ((∃ i, .call i (.allocate n) ∈ ops) ∨ ∃ i, .local (.use i (.allocate n)) ∈ ops) → 0 < n ∧ n + t.margin < W64

theorem GlSane.mv {t : AllocTy} {ops : List GlOp} (h : GlSane t ops) (tail : List MvOp) (ht : ∀ i n, .use i (.allocate n) ∉ tail) :
    MvSane t (.create 0 :: glTr 0 ops ++ tail) := by
  intro i n hn
  simp only [List.cons_append, List.mem_cons, reduceCtorEq, false_or, List.mem_append] at hn
  rcases hn with hn | hn
  · exact h n (glTr_use hn)
  · exact (ht i n hn).elim

/-! ### Theorems -/

/-- **C88, `set_allocator`.** A program that uses one global allocator (of any composed type that can be moved and assigned) through any
number of `global<A>` instances, has allocator objects of its own, moves them into the global allocator with `set_allocator`, or out of it, never
runs into undefined behaviour. At any time all blocks the client holds, whichever way they were obtained and whatever was moved since, are
disjoint, aligned, and contain what the client wrote; other memory is untouched. Blocks that moved along with their allocator are owned by the global
allocator, and by no other object.

Partial: `set_allocator` only when the client holds no block obtained from the previous global allocator
(`C88_linear_false`, `C88_cascading_false`), and the restrictions of C60 for moving from an object. -/
theorem C88_global_partial (sys : Sys) (t : AllocTy) (hwf : t.WF) (hmv : t.movable = true) (has : t.assignable = true) (a : Nat) (bs : List Nat)
    (w : World) (hp : Places w t.size (a :: bs)) (ops : List GlOp) (hops : GlSane t ops) :
    match glplay sys (t.moves sys) a bs ops w with
    | .ok p w' =>
      (p.live ++ p.foreign ++ allBlocks p.locals).Pairwise
        (fun a d => ∀ x, ¬ ((a.1 ≤ x ∧ x < a.1 + a.2.length) ∧ (d.1 ≤ x ∧ x < d.1 + d.2.length))) ∧
      (∀ d ∈ p.live ++ p.foreign ++ allBlocks p.locals, ∀ i (hi : i < d.2.length), w'.heap.b (d.1 + i) = some d.2[i]) ∧
      (∀ d, (d ∈ p.live ∨ ∃ o ∈ p.locals, d ∈ o.live) → d.1 ≠ 0 ∧ d.1 % 16 = 0 ∧ d.1 + d.2.length < W64) ∧
      (∀ x v, ¬ (∃ b ∈ a :: bs, b ≤ x ∧ x < b + t.size) → w.heap.b x = some v → w'.heap.b x = some v) ∧
      (∀ owns, (t.denote sys).owns = some owns → ∀ d ∈ p.live, ∀ x, d.1 ≤ x → x < d.1 + d.2.length →
        owns p.g.obj x = true ∧ ∀ o ∈ p.locals, ∀ s, o.st = some s → owns s x = false) ∧
      (∀ owns, (t.denote sys).owns = some owns → ∀ o ∈ p.locals, ∀ d ∈ o.live, ∀ x, d.1 ≤ x → x < d.1 + d.2.length → owns p.g.obj x = false)
    | .oom w' => w'.failed = true
    | .ub => False := by
  have hm : MvSane t (.create 0 :: glTr 0 ops) := by
    have := hops.mv [] (fun i n h => by cases h)
    simpa using this
  have key := C60_moves_partial sys t hwf hmv (a :: bs) w hp (.create 0 :: glTr 0 ops) (fun _ => has) hm
  have sim := gl_play sys (t.moves sys) a bs ops w
  cases hr : glplay sys (t.moves sys) a bs ops w with
  | oom w' => rw [hr] at sim; dsimp only at sim; rw [sim] at key; exact key
  | ub => rw [hr] at sim; dsimp only at sim; rw [sim] at key; exact key
  | ok p w' =>
    rw [hr] at sim
    dsimp only at sim
    have sim := sim.1
    rw [sim] at key
    have own := fun owns ho i j o q s hi hs hj d hd x hx =>
      C60_owns_partial sys t hwf hmv (a :: bs) w hp (.create 0 :: glTr 0 ops) (fun _ => has) hm p.objs w' sim owns ho i j o q s hi hs hj d hd x hx
    dsimp only at key ⊢
    obtain ⟨k1, k2, k3, k4, _⟩ := key
    refine ⟨k1, k2, fun d hd => ?_, k4, fun owns ho d hd x h1 h2 => ⟨?_, fun o hl s hs => ?_⟩, fun owns ho o hl d hd x h1 h2 => ?_⟩
    · rcases hd with hd | ⟨o, ho, hd⟩
      · exact k3 _ List.mem_cons_self d hd
      · exact k3 o (List.mem_cons_of_mem _ ho) d hd
    · simpa using own owns ho 0 0 _ _ p.g.obj rfl rfl rfl d hd x ⟨h1, h2⟩
    · obtain ⟨i, hi⟩ := List.getElem?_of_mem hl
      simpa using own owns ho (i + 1) 0 o _ s (by simpa [GlProg.objs] using hi) hs rfl d hd x ⟨h1, h2⟩
    · obtain ⟨i, hi⟩ := List.getElem?_of_mem hl
      simpa using own owns ho 0 (i + 1) _ o p.g.obj rfl rfl (by simpa [GlProg.objs] using hi) d hd x ⟨h1, h2⟩

/-- **C88, the end of the program.** When the program ends with its own objects destroyed and all blocks of the global allocator returned, the
destruction of the static object gives back everything, whatever allocators had been installed before: nothing leaks and nothing is
freed twice. -/
theorem C88_exit_partial (sys : Sys) (t : AllocTy) (hwf : t.WF) (hmv : t.movable = true) (has : t.assignable = true) (a : Nat) (bs : List Nat)
    (w : World) (hp : Places w t.size (a :: bs)) (ops : List GlOp) (hops : GlSane t ops) :
    match glexit sys (t.moves sys) a bs ops w with
    | .ok p w' =>
      p.live = [] → (∀ o ∈ p.locals, o.st.isNone = true) → p.foreign = [] → (∀ o ∈ p.locals, o.foreign = []) →
      w'.heap.t = w.heap.t ∧ ∀ x, ¬ (∃ b ∈ a :: bs, b ≤ x ∧ x < b + t.size) → w'.heap.b x = w.heap.b x
    | .oom w' => w'.failed = true ∨ ∃ p w1, glplay sys (t.moves sys) a bs ops w = .ok p w1 ∧ p.live ≠ []
    | .ub => ∃ p w1, glplay sys (t.moves sys) a bs ops w = .ok p w1 ∧ p.live ≠ [] := by
  have key := C60_moves_partial sys t hwf hmv (a :: bs) w hp (.create 0 :: glTr 0 ops ++ [.destroy 0]) (fun _ => has)
    (hops.mv _ (fun i n h => by simp at h))
  have sim := gl_play sys (t.moves sys) a bs ops w
  unfold glexit
  rw [M.bind_apply]
  have ea : ∀ w, mvplay sys (t.moves sys) (a :: bs) (.create 0 :: glTr 0 ops ++ [.destroy 0]) w =
      (mvplay sys (t.moves sys) (a :: bs) (.create 0 :: glTr 0 ops) >>= fun o => mvrun sys (t.moves sys) o [.destroy 0]) w := fun w => by
    unfold mvplay; rw [mvrun_append]
  rw [ea, M.bind_apply] at key
  cases hr : glplay sys (t.moves sys) a bs ops w with
  | oom w' => rw [hr] at sim; dsimp only at sim; rw [sim] at key; exact .inl key
  | ub => rw [hr] at sim; dsimp only at sim; rw [sim] at key; exact key.elim
  | ok p w1 =>
    rw [hr] at sim
    dsimp only at sim
    rw [sim.1] at key
    dsimp only at key ⊢
    rw [M.bind_apply]
    by_cases hl : p.live = []
    · simp only [mvrun, MvOp.step, GlProg.objs, List.getElem?_cons_zero, M.bind_apply, hl, if_true] at key
      cases hf : (t.denote sys).fini p.g.obj w1 with
      | oom w' => rw [hf] at key; exact .inl key
      | ub => rw [hf] at key; exact key.elim
      | ok u w' =>
        rw [hf] at key
        simp only [M.pure_apply, List.set_cons_zero] at key ⊢
        obtain ⟨_, _, _, _, k5⟩ := key
        intro _ hn hfo hlf
        obtain ⟨h1, h2⟩ := k5 (fun o ho => by
          rcases List.mem_cons.1 ho with rfl | ho
          · rfl
          · exact hn o ho)
        have nof : ∀ o ∈ (⟨p.addr, none, [], p.foreign⟩ : MvObj (t.denote sys)) :: p.locals, o.foreign = [] := fun o ho => by
          rcases List.mem_cons.1 ho with rfl | ho
          · exact hfo
          · exact hlf o ho
        exact ⟨funext fun x => h1 x (fun o ho f hf => by rw [nof o ho] at hf; cases hf),
          fun x hx => h2 x hx (fun o ho f hf => by rw [nof o ho] at hf; cases hf)⟩
    · cases hf : (t.denote sys).fini p.g.obj w1 with
      | oom w' => exact .inr ⟨p, w1, rfl, hl⟩
      | ub => exact ⟨p, w1, rfl, hl⟩
      | ok u w' =>
        simp only [M.pure_apply]
        exact fun h => absurd h hl

/-! ### What does not hold -/

/-- A program allocates 16 bytes from a global allocator, installs a new allocator, and allocates 16 bytes again. The two blocks. -/
def replacedGlobal (t : AllocTy) : M (Nat × Nat × Globals (t.denote (demoSys .direct))) := do
  let A := t.denote (demoSys .direct)
  let s ← A.init 4096
  let r ← A.alloc s 16
  let l ← A.init (4096 + t.size)
  let g ← Globals.setAllocator (t.moves (demoSys .direct)) ⟨r.2, 1⟩ l
  let q ← A.alloc g.1.obj 16
  pure (r.1, q.1, ⟨q.2, 1⟩)

/-- **C88 is false while blocks are in use, `linear_allocator`**: after `set_allocator` the memory of a block that is still in use is handed out
again. Nothing (no assertion either) guards against it. -/
theorem C88_linear_false : (replacedGlobal (.linear 64) (demoWorld 256)).test (fun r _ => decide (r.1 ≠ 0 ∧ r.1 = r.2.1)) = true := by
  decide +kernel

/-- **C88 is false while blocks are in use, `cascading`**: `set_allocator` deletes the nodes of the previous allocator with the blocks in them
(the memory of the first block is gone), and the next write of the client to its block is undefined behaviour. -/
theorem C88_cascading_false :
    (replacedGlobal (.cascading (.linear 64)) (demoWorld 256)).test (fun r w' => decide (r.1 ≠ 0) && (w'.heap.b r.1).isNone) = true ∧
    ((do let r ← replacedGlobal (.cascading (.linear 64)); M.store r.1 7) (demoWorld 256)).isUB = true := by
  constructor <;> decide +kernel

/-! ### Examples -/

/-- A program: two instances; the program's own object serves two blocks, becomes the global allocator, and its blocks are returned through the
second instance; in the end the allocator is moved out again. -/
def demoGlOps : List GlOp :=
  [.instance, .instance, .call 0 (.allocate 16), .call 1 (.deallocate 0), .local (.create 0), .local (.use 0 (.allocate 24)), .local (.use 0 (.allocate 8)),
   .local (.use 0 (.write 0 3 7)), .set 1 0, .call 1 (.deallocate 1), .call 0 (.allocate 32), .drop, .take 0 1]

example : GlSane demoMvTy demoGlOps := by
  intro n h
  simp [demoGlOps] at h
  rcases h with ⟨_, ⟨_, rfl⟩ | ⟨_, rfl⟩⟩ | ⟨_, ⟨_, rfl⟩ | ⟨_, rfl⟩⟩ <;> decide
example : Places (demoWorld 96) demoMvTy.size (4096 :: [4128, 4160]) :=
  ⟨by
    intro b hb
    simp at hb
    rcases hb with rfl | rfl | rfl <;> refine ⟨by decide, by decide, by decide, fun x h1 h2 => ?_⟩ <;>
      exact (demoStorage 96 (by decide)).2.2.2 x (by omega) (by have : demoMvTy.size = 32 := rfl; omega),
   by decide⟩
example : ((glplay (demoSys .direct) ((AllocTy.cascading (.linear 64)).moves (demoSys .direct)) 4096 [4128, 4160] demoGlOps (demoWorld 96)).test
    fun p _ => decide (p.live = [] ∧ p.locals.map (fun o => o.live.map (fun a => a.2.length)) = [[], [32, 8]] ∧ p.g.instances = 1)) = true := by decide +kernel

end KTL
