import Verif.Alloc.Handles
import Verif.Props.Linear

/- C10, C29, C30, C31: handle classes, comparison operators, `type_allocator`. -/
namespace KTL

/-! ### Specification: what a handle program means -/

/-- The calls a program makes through existing handles, if `k` handles exist at the start. -/
def callsOf : Nat → List HOp → List Call
  | _, [] => []
  | k, .copy i :: os | k, .move i :: os => callsOf (if i < k then k + 1 else k) os
  | k, .assign _ _ :: os | k, .moveAssign _ _ :: os => callsOf k os
  | k, .drop i :: os => callsOf (if i < k then k - 1 else k) os
  | k, .call i c :: os => if i < k then c :: callsOf k os else callsOf k os

/-- Which object each handle designates: a copy designates the object of the original, an assigned
handle that of the right-hand side. The result lists the calls with the object they are meant for. -/
def resolve : List Nat → List HOp → List (Nat × Call)
  | _, [] => []
  | ps, .copy i :: os | ps, .move i :: os => resolve (ps ++ (ps[i]?).toList) os
  | ps, .assign i j :: os | ps, .moveAssign i j :: os => resolve (match ps[j]? with | some k => ps.set i k | none => ps) os
  | ps, .drop i :: os => resolve (ps.eraseIdx i) os
  | ps, .call i c :: os => (ps[i]?).toList.map (·, c) ++ resolve ps os

/-- Calls made directly on a collection of allocator objects. -/
def directCalls (A : Allocator) (objs : Nat → A.St) : List (Nat × Call) → M (List Ret × (Nat → A.St))
  | [] => pure ([], objs)
  | (k, c) :: cs => do
    let r ← A.call (objs k) c
    let t ← directCalls A (upd objs k r.2) cs
    pure (r.1 :: t.1, t.2)

/-- **C30, `reference`.** A program that uses any number of allocator objects through any mix of copied,
moved and assigned handles has the same results and the same effect as the same calls made directly
on the objects the handles designate. -/
theorem C30_reference_transparent (A : Allocator) (h : Handles A) (ops : List HOp) :
    (do let r ← h.run ops; pure (r.2, r.1.objs)) = directCalls A h.objs (resolve h.ptrs ops) := by
  induction ops generalizing h with
  | nil => rfl
  | cons o os ih =>
    have key : ∀ (h' : Handles A), h.step o = pure (h', []) → resolve h.ptrs (o :: os) = resolve h'.ptrs os → h'.objs = h.objs →
        (do let r ← h.run (o :: os); pure (r.2, r.1.objs)) = directCalls A h.objs (resolve h.ptrs (o :: os)) := by
      intro h' e1 e2 e3
      simp only [Handles.run, e1, pure_bind, bind_assoc, List.nil_append]
      rw [e2, ← e3]
      exact ih h'
    cases o with
    | copy i =>
      cases hi : h.ptrs[i]? with
      | none => exact key h (by simp only [Handles.step, hi]) (by simp only [resolve, hi, Option.toList, List.append_nil]) rfl
      | some k => exact key ⟨h.objs, h.ptrs ++ [k]⟩ (by simp only [Handles.step, hi]) (by simp only [resolve, hi, Option.toList]) rfl
    | move i =>
      cases hi : h.ptrs[i]? with
      | none => exact key h (by simp only [Handles.step, hi]) (by simp only [resolve, hi, Option.toList, List.append_nil]) rfl
      | some k => exact key ⟨h.objs, h.ptrs ++ [k]⟩ (by simp only [Handles.step, hi]) (by simp only [resolve, hi, Option.toList]) rfl
    | assign i j =>
      cases hi : h.ptrs[j]? with
      | none => exact key h (by simp only [Handles.step, hi]) (by simp only [resolve, hi]) rfl
      | some k => exact key ⟨h.objs, h.ptrs.set i k⟩ (by simp only [Handles.step, hi]) (by simp only [resolve, hi]) rfl
    | moveAssign i j =>
      cases hi : h.ptrs[j]? with
      | none => exact key h (by simp only [Handles.step, hi]) (by simp only [resolve, hi]) rfl
      | some k => exact key ⟨h.objs, h.ptrs.set i k⟩ (by simp only [Handles.step, hi]) (by simp only [resolve, hi]) rfl
    | drop i => exact key ⟨h.objs, h.ptrs.eraseIdx i⟩ rfl rfl rfl
    | call i c =>
      cases hi : h.ptrs[i]? with
      | none => exact key h (by simp only [Handles.step, hi]) (by simp [resolve, hi]) rfl
      | some k =>
        simp only [Handles.run, Handles.step, hi, resolve, Option.toList, List.map_cons, List.map_nil, List.cons_append,
          List.nil_append, directCalls, bind_assoc, pure_bind]
        congr 1; funext r
        rw [← ih ⟨upd h.objs k r.2, h.ptrs⟩]
        simp only [bind_assoc, pure_bind]

/-- if all handles designate one object, the calls are those of `callsOf` -/
theorem resolve_single (k : Nat) (ops : List HOp) (m : Nat) :
    resolve (List.replicate m k) ops = (callsOf m ops).map (k, ·) := by
  induction ops generalizing m with
  | nil => rfl
  | cons o os ih =>
    have hc : ∀ i, List.replicate m k ++ ((List.replicate m k)[i]?).toList = List.replicate (if i < m then m + 1 else m) k := by
      intro i
      by_cases hi : i < m
      · simp only [hi, if_true]
        rw [List.getElem?_replicate, if_pos hi]
        exact List.replicate_succ'.symm
      · simp [hi]
    have ha : ∀ i j : Nat, (match (List.replicate m k)[j]? with
        | some k' => (List.replicate m k).set i k' | none => List.replicate m k) = List.replicate m k := by
      intro i j
      rw [List.getElem?_replicate]
      by_cases hj : j < m
      · simp only [hj, if_true]
        apply List.ext_getElem?
        intro x
        rw [List.getElem?_set]
        split
        · simp_all [List.getElem?_replicate]
        · rfl
      · simp only [hj, if_false]
    cases o with
    | copy i => simp only [resolve, callsOf, hc, ih]
    | move i => simp only [resolve, callsOf, hc, ih]
    | assign i j => simp only [resolve, callsOf, ha, ih]
    | moveAssign i j => simp only [resolve, callsOf, ha, ih]
    | drop i =>
      simp only [resolve, callsOf, ← ih]
      congr 1
      by_cases hi : i < m
      · simp [hi, List.eraseIdx_replicate]
      · simp [hi, List.eraseIdx_replicate]
    | call i c =>
      simp only [resolve, callsOf, ih, List.getElem?_replicate]
      by_cases hi : i < m <;> simp [hi]

theorem directCalls_single (A : Allocator) (objs : Nat → A.St) (k : Nat) (cs : List Call) :
    directCalls A objs (cs.map (k, ·)) = (do let r ← A.calls (objs k) cs; pure (r.1, upd objs k r.2)) := by
  have uu : ∀ (f : Nat → A.St) (a b : A.St), upd (upd f k a) k b = upd f k b := by
    intro f a b; funext x; simp only [upd]; split <;> rfl
  induction cs generalizing objs with
  | nil =>
    simp only [List.map_nil, directCalls, Allocator.calls, pure_bind]
    congr 2; funext x; simp only [upd]; split
    · subst x; rfl
    · rfl
  | cons c cs ih =>
    simp only [List.map_cons, directCalls, Allocator.calls, bind_assoc, pure_bind, ih]
    congr 1; funext r
    have e : upd objs k r.2 k = r.2 := by simp [upd]
    rw [e]
    simp only [uu]

/-- **C30, one object.** If all handles designate the object `k`, the program is equivalent to its calls
made on that object; no other object changes. -/
theorem C30_reference_single (A : Allocator) (objs : Nat → A.St) (k m : Nat) (ops : List HOp) :
    (do let r ← (Handles.mk (A := A) objs (List.replicate m k)).run ops; pure (r.2, r.1.objs)) =
      (do let r ← A.calls (objs k) (callsOf m ops); pure (r.1, upd objs k r.2)) := by
  rw [C30_reference_transparent]
  simp only [resolve_single, directCalls_single]

/-- **C30, `global`.** A program that uses any number of `global<A>` instances is equivalent to its calls
made on the one underlying allocator. -/
theorem C30_global_transparent (A : Allocator) (g : Globals A) (ops : List HOp) :
    (do let r ← g.run ops; pure (r.2, r.1.obj)) = A.calls g.obj (callsOf g.instances ops) := by
  induction ops generalizing g with
  | nil => rfl
  | cons o os ih =>
    have key : ∀ (g' : Globals A), g.step o = pure (g', []) → callsOf g.instances (o :: os) = callsOf g'.instances os → g'.obj = g.obj →
        (do let r ← g.run (o :: os); pure (r.2, r.1.obj)) = A.calls g.obj (callsOf g.instances (o :: os)) := by
      intro g' e1 e2 e3
      simp only [Globals.run, e1, pure_bind, bind_assoc, List.nil_append]
      rw [e2, ← e3]
      exact ih g'
    cases o with
    | copy i => exact key _ rfl (by simp only [callsOf]; split <;> rfl) (by split <;> rfl)
    | move i => exact key _ rfl (by simp only [callsOf]; split <;> rfl) (by split <;> rfl)
    | assign i j => exact key g rfl rfl rfl
    | moveAssign i j => exact key g rfl rfl rfl
    | drop i => exact key _ rfl (by simp only [callsOf]; split <;> rfl) (by split <;> rfl)
    | call i c =>
      by_cases hi : i < g.instances
      · simp only [Globals.run, Globals.step, callsOf, hi, if_true, Allocator.calls, bind_assoc, pure_bind, List.cons_append, List.nil_append]
        congr 1; funext r
        rw [← ih ⟨r.2, g.instances⟩]
        simp only [bind_assoc, pure_bind]
      · exact key g (by simp only [Globals.step, hi, if_false]) (by simp only [callsOf, hi, if_false]) rfl

/-! ### C10 -/

theorem stack_call_linear (Size : Nat) (s : Stack) (c : Call) :
    (linear Size).call s.lin c = (do let r ← (stackAlloc Size).call s c; pure (r.1, Stack.lin r.2)) := by
  cases c with
  | allocate n => exact congrArg (fun x : Nat × Linear.St => (pure (Ret.ptr x.1, x.2) : M (Ret × Linear.St))) (Stack.lin_alloc Size s n)
  | deallocate p n => exact congrArg (fun x => (pure (Ret.unit, x) : M (Ret × Linear.St))) (Stack.lin_dealloc s p n)
  | construct p => rfl
  | destroy p => rfl
  | owns p => rfl
  | max_size => rfl

theorem calls_map_aux {α β : Type} (x : M (List Ret × α)) (f : α → β) (a : Ret) :
    (do let t ← (do let r ← x; pure (r.1, f r.2)); pure (a :: t.1, t.2)) =
      (do let r ← x; pure (a :: r.1, f r.2) : M (List Ret × β)) := by
  simp only [bind_assoc, pure_bind]

theorem stack_calls_linear (Size : Nat) (s : Stack) (cs : List Call) :
    (linear Size).calls s.lin cs = (do let r ← (stackAlloc Size).calls s cs; pure (r.1, Stack.lin r.2)) := by
  induction cs generalizing s with
  | nil => rfl
  | cons c cs ih =>
    refine Eq.trans (b := (do
      let r ← (linear Size).call s.lin c
      let t ← (linear Size).calls r.2 cs
      pure (r.1 :: t.1, t.2))) rfl ?_
    rw [stack_call_linear]
    simp only [Allocator.calls, bind_assoc, pure_bind]
    congr 1; funext r
    refine Eq.trans (b := (do
      let t ← (linear Size).calls (Stack.lin r.2) cs
      pure (r.1 :: t.1, t.2))) rfl ?_
    exact (congrArg (fun m : M (List Ret × Linear.St) => (do let t ← m; pure (r.1 :: t.1, t.2))) (ih r.2)).trans
      (calls_map_aux _ Stack.lin r.1)

/-- **C10.** Any program using `m` copies of a `stack_allocator` on the stack object `k` (making more
copies, assigning, dropping them) gets exactly the results that the same calls give on one
`linear_allocator` of the same size whose buffer is where the stack's is. The stack ends up in the
corresponding state and no other stack changes. -/
theorem C10_stack_handles_share (Size : Nat) (stacks : Nat → Stack) (k m : Nat) (ops : List HOp) (w : World) :
    ∃ h rs s, (Handles.mk (A := stackAlloc Size) stacks (List.replicate m k)).run ops w = .ok (h, rs) w ∧
      (linear Size).calls (⟨(stacks k).data, (stacks k).free, (stacks k).count⟩ : Linear.St) (callsOf m ops) w = .ok (rs, s) w ∧
      s = (⟨Stack.data (h.objs k), Stack.free (h.objs k), Stack.count (h.objs k)⟩ : Linear.St) ∧
      ∀ j, j ≠ k → h.objs j = stacks j := by
  have h1 := C30_reference_single (stackAlloc Size) stacks k m ops
  have h2 := stack_calls_linear Size (stacks k) (callsOf m ops)
  have pureCalls : ∀ (cs : List Call) (s : Stack), ∃ r, (stackAlloc Size).calls s cs = pure r := by
    intro cs
    induction cs with
    | nil => intro s; exact ⟨_, rfl⟩
    | cons c cs ih =>
      intro s
      have : ∃ r, (stackAlloc Size).call s c = pure r := by cases c <;> exact ⟨_, rfl⟩
      obtain ⟨r, hr⟩ := this
      obtain ⟨t, ht⟩ := ih r.2
      exact ⟨(r.1 :: t.1, t.2), by simp only [Allocator.calls, hr, pure_bind, ht]⟩
  obtain ⟨r, hr⟩ := pureCalls (callsOf m ops) (stacks k)
  have h1w := congrFun h1 w
  rw [hr] at h1w h2
  rw [pure_bind] at h2 h1w
  obtain ⟨x, w1, hx1, hx2⟩ := bind_ok (b := (r.1, upd stacks k r.2)) (w' := w) h1w
  obtain ⟨⟨os, ps⟩, rs⟩ := x
  have hx3 : Res.ok (rs, os) w1 = Res.ok (r.1, upd stacks k r.2) w := hx2
  injection hx3 with e1 e2
  injection e1 with e3 e4
  subst e3 e2 e4
  refine ⟨_, _, Stack.lin r.2, hx1, congrFun h2 w1, ?_, ?_⟩
  · have : upd stacks k r.2 k = r.2 := if_pos rfl
    show Stack.lin r.2 = Stack.lin (upd stacks k r.2 k)
    rw [this]
  · intro j hj; exact if_neg hj


/-! ### C29 -/

/-- no `global` anywhere in the object -/
def Val.noGlobal : Val → Bool
  | .global => false
  | .freelist a _ => a.noGlobal
  | .fallback p f | .segragator p f => p.noGlobal && f.noGlobal
  | .overflow a | .threaded a | .shared _ a | .reference _ a | .typed a => a.noGlobal
  | _ => true

/-- **C29 (partial).** For allocator objects without a `global` part, `a != b` is the negation of
`a == b`, and the two are undefined together. With `global` it is false: `C29_global_inconsistent`. -/
theorem C29_ne_is_not_eq_partial (a b : Val) (h : a.noGlobal = true) : a.ne b = (a.eq b).map (!·) := by
  have bind2 : ∀ (x y z u : Option Bool), x = y.map (!·) → z = u.map (!·) →
      (x.bind fun r => orO r z) = (y.bind fun r => andO r u).map (!·) := by
    rintro x y z u rfl rfl
    cases y with
    | none => rfl
    | some y => cases y <;> cases u <;> rfl
  have one2 : ∀ (p q : Nat) (z u : Option Bool), z = u.map (!·) → orO (p != q) z = (andO (p == q) u).map (!·) := by
    rintro p q z u rfl
    by_cases h : p = q
    · subst h; simp [orO, andO]
    · simp [orO, andO, h]
  induction a generalizing b with
  | null => cases b <;> rfl
  | mallocator => cases b <;> rfl
  | linear d => cases b <;> first | rfl | (simp only [Val.ne, Val.eq, Option.map_some]; rfl)
  | stack d => cases b <;> first | rfl | (simp only [Val.ne, Val.eq, Option.map_some]; rfl)
  | freelist v x ih =>
    cases b with
    | freelist v' y =>
      simp only [Val.ne, Val.eq]
      exact bind2 _ _ _ _ (ih v' h) rfl
    | _ => rfl
  | fallback p f ihp ihf =>
    simp only [Val.noGlobal, Bool.and_eq_true] at h
    cases b with
    | fallback p' f' =>
      simp only [Val.ne, Val.eq]
      exact bind2 _ _ _ _ (ihp p' h.1) (ihf f' h.2)
    | _ => rfl
  | segragator p f ihp ihf =>
    simp only [Val.noGlobal, Bool.and_eq_true] at h
    cases b with
    | segragator p' f' =>
      simp only [Val.ne, Val.eq]
      exact bind2 _ _ _ _ (ihp p' h.1) (ihf f' h.2)
    | _ => rfl
  | cascading d => cases b <;> first | rfl | (simp only [Val.ne, Val.eq, Option.map_some]; rfl)
  | overflow v ih => cases b with
    | overflow v' => exact ih v' h
    | _ => rfl
  | threaded v ih => cases b with
    | threaded v' => exact ih v' h
    | _ => rfl
  | sharedNull => cases b <;> rfl
  | shared p v ih => cases b with
    | shared p' v' => exact one2 _ _ _ _ (ih v' h)
    | _ => rfl
  | reference p v ih => cases b with
    | reference p' v' => exact one2 _ _ _ _ (ih v' h)
    | _ => rfl
  | global => cases h
  | typed v ih => cases b with
    | typed v' => exact ih v' h
    | _ => rfl

/-- **C29, negation.** Two `global<A>` objects are both equal and unequal. -/
theorem C29_global_inconsistent : Val.eq .global .global = some true ∧ Val.ne .global .global = some true := ⟨rfl, rfl⟩

/-- Comparing two moved-from `shared` handles dereferences a null pointer. -/
theorem C29_shared_null_undefined : Val.eq .sharedNull .sharedNull = none ∧ Val.ne .sharedNull .sharedNull = none := ⟨rfl, rfl⟩

/-- `==` is symmetric. -/
theorem C29_eq_symm (a b : Val) : a.eq b = b.eq a := by
  have bindc : ∀ (x z : Option Bool) (x' z' : Option Bool), x = x' → z = z' →
      (x.bind fun r => andO r z) = (x'.bind fun r => andO r z') := by rintro _ _ _ _ rfl rfl; rfl
  have bc : ∀ p q : Nat, (p == q) = (q == p) := fun p q => Bool.eq_iff_iff.2 (by rw [beq_iff_eq, beq_iff_eq]; exact eq_comm)
  induction a generalizing b with
  | freelist v x ih =>
    cases b with
    | freelist v' y => simp only [Val.eq]; exact bindc _ _ _ _ (ih v') (by rw [bc])
    | _ => rfl
  | fallback p f ihp ihf =>
    cases b with
    | fallback p' f' => simp only [Val.eq]; exact bindc _ _ _ _ (ihp p') (ihf f')
    | _ => rfl
  | segragator p f ihp ihf =>
    cases b with
    | segragator p' f' => simp only [Val.eq]; exact bindc _ _ _ _ (ihp p') (ihf f')
    | _ => rfl
  | overflow v ih => cases b with
    | overflow v' => exact ih v'
    | _ => rfl
  | threaded v ih => cases b with
    | threaded v' => exact ih v'
    | _ => rfl
  | shared p v ih => cases b with
    | shared p' v' => rw [Val.eq, Val.eq, ih v', bc p p']
    | _ => rfl
  | reference p v ih => cases b with
    | reference p' v' => rw [Val.eq, Val.eq, ih v', bc p p']
    | _ => rfl
  | typed v ih => cases b with
    | typed v' => exact ih v'
    | _ => rfl
  | linear d => cases b with
    | linear d' => rw [Val.eq, Val.eq, bc d d']
    | _ => rfl
  | stack d => cases b with
    | stack d' => rw [Val.eq, Val.eq, bc d d']
    | _ => rfl
  | cascading d => cases b with
    | cascading d' => rw [Val.eq, Val.eq, bc d d']
    | _ => rfl
  | null => cases b <;> rfl
  | mallocator => cases b <;> rfl
  | sharedNull => cases b <;> rfl
  | global => cases b <;> rfl

/-- no moved-from `shared` handle inside -/
def Val.noNullShared : Val → Bool
  | .sharedNull => false
  | .freelist v _ | .overflow v | .threaded v | .shared _ v | .reference _ v | .typed v => v.noNullShared
  | .fallback p f | .segragator p f => p.noNullShared && f.noNullShared
  | _ => true

/-- **C29.** `==` is reflexive on objects without moved-from `shared` handles. -/
theorem C29_eq_refl (a : Val) (h : a.noNullShared = true) : a.eq a = some true := by
  induction a with
  | sharedNull => cases h
  | fallback p f ihp ihf =>
    simp only [Val.noNullShared, Bool.and_eq_true] at h
    simp only [Val.eq, ihp h.1, ihf h.2]; rfl
  | segragator p f ihp ihf =>
    simp only [Val.noNullShared, Bool.and_eq_true] at h
    simp only [Val.eq, ihp h.1, ihf h.2]; rfl
  | freelist v x ih => simp only [Val.eq, ih h]; simp [andO]
  | shared x v ih => simp only [Val.eq, ih h]; simp [andO]
  | reference x v ih => simp only [Val.eq, ih h]; simp [andO]
  | overflow v ih => exact ih h
  | threaded v ih => exact ih h
  | typed v ih => exact ih h
  | linear d => simp [Val.eq]
  | stack d => simp [Val.eq]
  | cascading d => simp [Val.eq]
  | null => rfl
  | mallocator => rfl
  | global => rfl

/-- **C29.** If `a == b` then the two objects agree in everything comparisons look at; with symmetry this
makes `==` transitive (and a congruence for further comparisons). -/
theorem C29_eq_same (a b : Val) : a.eq b = some true → a = b := by
  have andT : ∀ (r : Bool) (z : Option Bool), andO r z = some true → r = true ∧ z = some true := by
    intro r z; cases r <;> simp [andO]
  have bindT : ∀ (x z : Option Bool), (x.bind fun r => andO r z) = some true → x = some true ∧ z = some true := by
    intro x z h
    cases x with
    | none => cases h
    | some r => have := andT r z h; rw [this.1]; exact ⟨rfl, this.2⟩
  induction a generalizing b with
  | freelist v x ih =>
    cases b <;> simp only [Val.eq] <;> try (intro h; cases h)
    rename_i v' y
    intro h
    have := bindT _ _ h
    simp only [Option.some.injEq, beq_iff_eq] at this
    rw [ih v' this.1, this.2]
  | fallback p f ihp ihf =>
    cases b <;> simp only [Val.eq] <;> try (intro h; cases h)
    rename_i p' f'
    intro h
    have := bindT _ _ h
    rw [ihp p' this.1, ihf f' this.2]
  | segragator p f ihp ihf =>
    cases b <;> simp only [Val.eq] <;> try (intro h; cases h)
    rename_i p' f'
    intro h
    have := bindT _ _ h
    rw [ihp p' this.1, ihf f' this.2]
  | overflow v ih => cases b <;> simp only [Val.eq] <;> try (intro h; cases h)
                     rename_i v'; intro h; rw [ih v' h]
  | threaded v ih => cases b <;> simp only [Val.eq] <;> try (intro h; cases h)
                     rename_i v'; intro h; rw [ih v' h]
  | typed v ih => cases b <;> simp only [Val.eq] <;> try (intro h; cases h)
                  rename_i v'; intro h; rw [ih v' h]
  | shared p v ih =>
    cases b <;> simp only [Val.eq] <;> try (intro h; cases h)
    rename_i p' v'
    intro h
    have := andT _ _ h
    simp only [beq_iff_eq] at this
    rw [ih v' this.2, this.1]
  | reference p v ih =>
    cases b <;> simp only [Val.eq] <;> try (intro h; cases h)
    rename_i p' v'
    intro h
    have := andT _ _ h
    simp only [beq_iff_eq] at this
    rw [ih v' this.2, this.1]
  | linear d => cases b <;> simp [Val.eq]
  | stack d => cases b <;> simp [Val.eq]
  | cascading d => cases b <;> simp [Val.eq]
  | null => cases b <;> simp [Val.eq]
  | mallocator => cases b <;> simp [Val.eq]
  | sharedNull => cases b <;> simp [Val.eq]
  | global => cases b <;> simp [Val.eq]

example : (Val.fallback (.freelist (.linear 4096) 5) (.shared 64 .mallocator)).noGlobal = true := rfl
example : (Val.fallback (.freelist (.linear 4096) 5) (.shared 64 .mallocator)).eq
    (.fallback (.freelist (.linear 4096) 5) (.shared 80 .mallocator)) = some false := rfl

/-! ### C31 -/

/-- A client of a `type_allocator`: for each live block the number of objects it was requested for and
the bytes expected in it. -/
structure TClient (A : Allocator) where
  st : A.St
  live : List (Nat × Nat × List UInt8)
  refused : List Nat := []

/-- One step: only `allocate` and `deallocate`, in numbers of objects of `sz` bytes; after a successful
allocation all `sz * n` bytes are read. -/
def TClient.step (sz : Nat) {A : Allocator} (c : TClient A) : Op → M (TClient A)
  | .allocate n => do
    let r ← typedAlloc sz A c.st n
    if r.1 = 0 then pure { c with st := r.2, refused := n :: c.refused }
    else do
      let bs ← M.readBytes r.1 (sz * n)
      pure { c with st := r.2, live := (r.1, n, bs) :: c.live }
  | .deallocate i =>
    match c.live[i]? with
    | none => pure c
    | some b => do
      let s ← typedDealloc sz A c.st b.1 b.2.1
      pure { c with st := s, live := c.live.eraseIdx i }
  | _ => pure c

def TClient.run (sz : Nat) {A : Allocator} (c : TClient A) : List Op → M (TClient A)
  | [] => pure c
  | o :: os => do
    let c' ← c.step sz o
    c'.run sz os

def tplay (sz : Nat) (A : Allocator) (b : Nat) (ops : List Op) : M (TClient A) := do
  let s ← A.init b
  TClient.run sz { st := s, live := [] } ops

/-- the same request in bytes -/
def Op.scale (sz : Nat) : Op → Op
  | .allocate n => .allocate (sz * n)
  | o => o

/-- only `allocate` and `deallocate` -/
def Op.basic : Op → Bool
  | .allocate _ | .deallocate _ => true
  | _ => false

/-- forget the numbers of objects -/
def TClient.bytes (sz : Nat) {A : Allocator} (c : TClient A) : Client A :=
  { st := c.st, live := c.live.map fun x => (x.1, x.2.2), foreign := [], refused := c.refused.map (sz * ·) }

theorem readBytes_length' (n p : Nat) : Post (M.readBytes p n) (fun bs => bs.length = n) := Linear.readBytes_length n p

theorem bind_congr_post {α β} {c : M α} {f g : α → M β} {Q : α → Prop} (h : Post c Q) (hfg : ∀ a, Q a → f a = g a) :
    c >>= f = c >>= g := by
  funext w
  rw [M.bind_apply, M.bind_apply]
  cases hc : c w with
  | ok a w' => simp only [hfg a (h w a w' hc)]
  | oom w' => rfl
  | ub => rfl

theorem typed_step (sys : Sys) (sz : Nat) {A : Allocator} (c : TClient A) (o : Op) (hb : o.basic = true)
    (ho : ∀ n, o = .allocate n → sz * n < W64)
    (hc : ∀ x ∈ c.live, x.2.2.length = sz * x.2.1 ∧ sz * x.2.1 < W64) :
    (do let c' ← c.step sz o; pure (c'.bytes sz)) = (c.bytes sz).step sys (o.scale sz) ∧
    Post (c.step sz o) (fun c' => ∀ x ∈ c'.live, x.2.2.length = sz * x.2.1 ∧ sz * x.2.1 < W64) := by
  have hm : ∀ n, sz * n < W64 → mulW sz n = sz * n := fun n h => Nat.mod_eq_of_lt h
  cases o with
  | allocate n =>
    have hn := ho n rfl
    constructor
    · simp only [TClient.step, typedAlloc, Op.scale, Client.step, bind_assoc, hm n hn]
      show _ = A.alloc c.st (sz * n) >>= _
      congr 1; funext r
      by_cases hr : r.1 = 0
      · simp only [hr, if_true, pure_bind]; rfl
      · simp only [hr, if_false, bind_assoc, pure_bind]; rfl
    · simp only [TClient.step]
      refine Post.bind' (fun r => ?_)
      split
      · exact Post.pure hc
      · refine Post.bind (readBytes_length' _ _) (fun bs hbs => Post.pure ?_)
        intro x hx
        rcases List.mem_cons.1 hx with rfl | hx
        · exact ⟨hbs, hn⟩
        · exact hc x hx
  | deallocate i =>
    cases hi : c.live[i]? with
    | none =>
      constructor
      · simp only [TClient.step, hi, pure_bind, Op.scale, Client.step, TClient.bytes, List.getElem?_map, Option.map_none]
      · simp only [TClient.step, hi]; exact Post.pure hc
    | some x =>
      have hx := hc x (List.mem_of_getElem? hi)
      constructor
      · simp only [TClient.step, hi, Op.scale, Client.step, TClient.bytes, List.getElem?_map, Option.map_some, typedDealloc,
          hm x.2.1 hx.2, bind_assoc, pure_bind, hx.1, Linear.map_eraseIdx']
      · simp only [TClient.step, hi]
        exact Post.bind' (fun s => Post.pure (fun y hy => hc y (List.mem_of_mem_eraseIdx hy)))
  | write i off v => cases hb
  | construct i off => cases hb
  | destroy i off => cases hb
  | foreign n => cases hb

/-- **C31 (partial).** If no size `sz * n` reaches 2^64, every history of a `type_allocator<T, A>` (with
`sizeof(T) = sz`) is the history of `A` with all sizes multiplied by `sz`: a block for `n` objects has
`sz * n` bytes, and a deallocation passes exactly the size that was allocated. Together with C01–C06
this makes typed use memory safe. For larger `n` it is false: `C31_wraps`. -/
theorem C31_type_allocator_scales_partial (sys : Sys) (sz : Nat) (A : Allocator) (b : Nat) (ops : List Op)
    (hb : ∀ o ∈ ops, o.basic = true) (hops : ∀ n, Op.allocate n ∈ ops → sz * n < 2 ^ 64) :
    (do let c ← tplay sz A b ops; pure (c.bytes sz)) = play sys A b (ops.map (Op.scale sz)) ∧
    Post (tplay sz A b ops) (fun c => ∀ x ∈ c.live, x.2.2.length = sz * x.2.1) := by
  have key : ∀ (ops : List Op) (c : TClient A), (∀ o ∈ ops, o.basic = true) → (∀ n, Op.allocate n ∈ ops → sz * n < 2 ^ 64) →
      (∀ x ∈ c.live, x.2.2.length = sz * x.2.1 ∧ sz * x.2.1 < W64) →
      (do let c' ← c.run sz ops; pure (c'.bytes sz)) = (c.bytes sz).run sys (ops.map (Op.scale sz)) ∧
      Post (c.run sz ops) (fun c => ∀ x ∈ c.live, x.2.2.length = sz * x.2.1) := by
    intro ops
    induction ops with
    | nil => intro c _ _ hc; exact ⟨by simp only [TClient.run, Client.run, pure_bind, List.map_nil], Post.pure (fun x hx => (hc x hx).1)⟩
    | cons o os ih =>
      intro c h1 h2 hc
      obtain ⟨e1, e2⟩ := typed_step sys sz c o (h1 o (by simp)) (fun n hn => h2 n (by simp [hn])) hc
      have ih' := fun c' hc' => ih c' (fun o ho => h1 o (List.mem_cons_of_mem _ ho)) (fun n hn => h2 n (List.mem_cons_of_mem _ hn)) hc'
      constructor
      · simp only [TClient.run, Client.run, List.map_cons, bind_assoc, ← e1, pure_bind]
        exact bind_congr_post e2 (fun c' hc' => (ih' c' hc').1)
      · simp only [TClient.run]
        exact Post.bind e2 (fun c' hc' => (ih' c' hc').2)
  unfold tplay play
  simp only [bind_assoc]
  constructor
  · congr 1; funext s
    exact (key ops _ hb hops (by simp)).1
  · exact Post.bind' (fun s => (key ops _ hb hops (by simp)).2)

/-- **C31, negation.** `type_allocator<T, linear_allocator<64>>` with `sizeof(T) = 16` answers a request
for 2^60 + 1 objects with a pointer to 16 bytes. -/
theorem C31_wraps : ∃ s', typedAlloc 16 (linear 64) (Linear.init 4096) (2 ^ 60 + 1) (demoWorld 80) = .ok (4096, s') (demoWorld 80) ∧
    Linear.St.free s' = 4096 + 16 := ⟨_, rfl, rfl⟩

/-- typed `max_size`: the number of whole objects that fit in the bytes -/
theorem C31_max_size (sz : Nat) (hsz : 0 < sz) (A : Allocator) (f : A.St → Option Nat) (hf : A.maxSize = some f) (s : A.St) (m : Nat)
    (hm : f s = some m) : ∃ g k, typedMax sz A = some g ∧ g s = some k ∧ ∀ n, n ≤ k ↔ sz * n ≤ m := by
  refine ⟨fun s => (f s).map (· / sz), m / sz, by simp [typedMax, hf], by simp [hm], fun n => ?_⟩
  rw [Nat.le_div_iff_mul_le hsz, Nat.mul_comm]

example : ((tplay 24 (linear 256) 4096 [.allocate 3, .allocate 2, .deallocate 1]) (demoWorld 300)).test
    (fun c _ => decide (c.live.map (fun x => (x.1, x.2.1, x.2.2.length)) = [(4176, 2, 48)])) = true := by decide +kernel
def demoHandles : M (List Ret) := do
  let r ← (Handles.mk (A := stackAlloc 64) (fun k => Stack.init k) [4096, 8192]).run
      ([.copy 0, .call 2 (.allocate 5), .assign 1 0, .call 1 (.allocate 5), .drop 0, .call 0 (.deallocate 4112 5), .call 1 (.owns 4100)] : List HOp)
  pure r.2
example : (demoHandles (demoWorld 0)).test (fun r _ => decide (r = [.ptr 4096, .ptr 4112, .unit, .bool true])) = true := by decide +kernel

end KTL
