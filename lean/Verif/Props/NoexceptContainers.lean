import Verif.Props.Noexcept

/-! # C77: the containers

Nearly all functions of the containers are declared `noexcept` whatever the allocator, the elements and the comparator do. -/

namespace KTL

open Exc

/-! ## What the property says -/

/-- all functions of the three containers with an allocator and a type of elements. Specification, not code. -/
def Exc.containerFns (e : Env) (T : Elem) (t : Ty) : List Fn := Vec.members e T t ++ Arr.members e T t ++ Heap.members e T t

/-- no function of the elements or the comparator throws, and constructors and destructor are declared `noexcept`. Specification, not code. -/
structure Exc.Elem.Quiet (T : Elem) : Prop where
  quiet : ∀ f ∈ [T.make, T.copy, T.move, T.copyAssign, T.moveAssign, T.dtor, T.eq, T.less, T.lessCopy],
    ¬ f.ends .throws ∧ ¬ f.ends .terminates
  nothrow : ∀ f ∈ [T.make, T.copy, T.move, T.dtor], f.nothrow = true

/-- The allocator types of the library without `threaded`. Specification, not code. -/
def Exc.Ty.Unlocked : Ty → Bool
  | .null | .malloc | .arena => true
  | .user _ | .threaded _ => false
  | .freelist A | .cascading A | .overflow A | .shared A | .reference A | .global A => A.Unlocked
  | .fallback P F | .segragator P F => P.Unlocked && F.Unlocked

/-! ## Proof -/

private theorem elem_honest {e : Env} {T : Elem} (hT : T.Quiet) (hs : ¬ e.stream .terminates) (hl : ¬ e.lock .terminates) {f : Fn}
    (hf : f ∈ [T.make, T.copy, T.move]) : (T.env e f).Honest := by
  have hq : f ∈ [T.make, T.copy, T.move, T.copyAssign, T.moveAssign, T.dtor, T.eq, T.less, T.lessCopy] := by
    simp only [List.mem_cons, List.not_mem_nil, or_false] at hf ⊢
    rcases hf with h | h | h <;> simp [h]
  have hd := hT.quiet T.dtor (by simp)
  exact { make := ⟨(hT.quiet f hq).2, fun _ => (hT.quiet f hq).1⟩, unmake := ⟨hd.2, fun _ => hd.1⟩, unmakeQuiet := hd.1, stream := hs, lock := hl }

private theorem construct_quiet {e : Env} {T : Elem} (hT : T.Quiet) (hs : ¬ e.stream .terminates) (hl : ¬ e.lock .terminates) {t : Ty} {f : Fn}
    (hf : f ∈ [T.make, T.copy, T.move]) (ht : t.Careful (T.env e f)) :
    ¬ traitsConstruct e T t f .throws ∧ ¬ traitsConstruct e T t f .terminates := by
  have hq : f ∈ [T.make, T.copy, T.move, T.copyAssign, T.moveAssign, T.dtor, T.eq, T.less, T.lessCopy] := by
    simp only [List.mem_cons, List.not_mem_nil, or_false] at hf ⊢
    rcases hf with h | h | h <;> simp [h]
  have hn : (T.env e f).nothrowMake = true := by
    have h1 : f.nothrow = true := hT.nothrow f (by
      simp only [List.mem_cons, List.not_mem_nil, or_false] at hf ⊢
      rcases hf with h | h | h <;> simp [h])
    have h2 : T.dtor.nothrow = true := hT.nothrow _ (by simp)
    simp [Env.nothrowMake, Elem.env, h1, h2]
  have hi := careful_inv (elem_honest hT hs hl hf) t ht
  unfold traitsConstruct
  cases hc : (t.cls (T.env e f)).construct with
  | none => exact hT.quiet f hq
  | some c => exact ⟨(hi.construct c hc).2.2 hn, (hi.construct c hc).1.term⟩

private theorem destroy_quiet {e : Env} {T : Elem} (hT : T.Quiet) (hs : ¬ e.stream .terminates) (hl : ¬ e.lock .terminates) {t : Ty}
    (ht : t.Careful (T.env e T.make)) : ¬ traitsDestroy e T t .throws ∧ ¬ traitsDestroy e T t .terminates := by
  have hi := careful_inv (elem_honest hT hs hl (f := T.make) (by simp)) t ht
  unfold traitsDestroy
  cases hc : (t.cls (T.env e T.make)).destroy with
  | none => exact hT.quiet _ (by simp)
  | some c => exact ⟨(hi.destroy c hc).2, (hi.destroy c hc).1.term⟩

/-! ## Theorems -/

/-- C77, containers: with an allocator composed with care, whose `allocate`, `deallocate` and default constructor never throw, and elements that
never throw, no function of a container throws or ends the program. Partial: with other allocators or elements functions declared `noexcept` end
the program, see below. -/
theorem C77_containers_partial {e : Env} {T : Elem} {t : Ty} (hs : ¬ e.stream .terminates) (hl : ¬ e.lock .terminates) (hT : T.Quiet)
    (ht : ∀ f ∈ [T.make, T.copy, T.move], t.Careful (T.env e f))
    (hA : ∀ f ∈ [(t.cls (T.env e T.make)).ctor, (t.cls (T.env e T.make)).allocate, (t.cls (T.env e T.make)).deallocate], ¬ f.ends .throws) :
    ∀ f ∈ containerFns e T t, ¬ f.ends .throws ∧ ¬ f.ends .terminates := by
  have hm := ht T.make (by simp)
  have hi := careful_inv (elem_honest hT hs hl (f := T.make) (by simp)) t hm
  have hc1 := construct_quiet hT hs hl (f := T.make) (by simp) hm
  have hc2 := construct_quiet hT hs hl (f := T.copy) (by simp) (ht T.copy (by simp))
  have hc3 := construct_quiet hT hs hl (f := T.move) (by simp) (ht T.move (by simp))
  have hd := destroy_quiet hT hs hl hm
  have a1 : ¬ traitsCtor e T t .throws := hA _ (by simp)
  have a2 : ¬ traitsCtor e T t .terminates := hi.ctor.term
  have b1 : ¬ traitsAllocate e T t .throws := by
    have := hA (t.cls (T.env e T.make)).allocate (by simp)
    simp [traitsAllocate, pass, this]
  have b2 : ¬ traitsAllocate e T t .terminates := hi.allocate.pass.term
  have c1 : ¬ traitsDeallocate e T t .throws := by
    have := hA (t.cls (T.env e T.make)).deallocate (by simp)
    simp [traitsDeallocate, pass, this]
  have c2 : ¬ traitsDeallocate e T t .terminates := hi.deallocate.pass.term
  have d1 := hi.dtorQ
  have d2 := hi.dtor.term
  have hq := hT.quiet
  simp only [List.mem_cons, List.not_mem_nil, or_false, forall_eq_or_imp, forall_eq] at hq
  obtain ⟨⟨m1, m2⟩, ⟨p1, p2⟩, ⟨v1, v2⟩, ⟨ca1, ca2⟩, ⟨ma1, ma2⟩, ⟨dt1, dt2⟩, ⟨eq1, eq2⟩, ⟨l1, l2⟩, lc1, lc2⟩ := hq
  obtain ⟨x1, x2⟩ := hc1
  obtain ⟨y1, y2⟩ := hc2
  obtain ⟨z1, z2⟩ := hc3
  obtain ⟨w1, w2⟩ := hd
  have hv : ∀ f ∈ Vec.members e T t, ¬ f.ends .throws ∧ ¬ f.ends .terminates := by
    simp [Vec.members, Vec.setSize, Vec.expand, Vec.ctor, Vec.ctorN, Vec.copy, Vec.move, Vec.moveWith, Vec.dtor, Vec.assign, Vec.moveAssign,
      Vec.resize, Vec.reserve, Vec.pushBack, Vec.emplaceBack, Vec.erase, a1, a2, b1, b2, c1, c2, d1, d2, m1, m2]
  have ha : ∀ f ∈ Arr.members e T t, ¬ f.ends .throws ∧ ¬ f.ends .terminates := by
    simp [Arr.members, Arr.ctor, Arr.ctorN, Arr.copy, Arr.move, Arr.moveWith, Arr.dtor, Arr.assign, Arr.moveAssign,
      Arr.resize, a1, a2, b1, b2, c1, c2, d1, d2]
  have hh : ∀ f ∈ Heap.members e T t, ¬ f.ends .throws ∧ ¬ f.ends .terminates := by
    simp [Heap.members, Heap.setSize, Heap.expand, Heap.percolateUp, Heap.percolateDown, Heap.ctor, Heap.ctorN, Heap.ctorList, Heap.copy,
      Heap.move, Heap.moveWith, Heap.dtor, Heap.assign, Heap.moveAssign, Heap.reserve, Heap.insert, Heap.pop, Heap.find, Heap.clear,
      Heap.drop, Heap.fill, a1, a2, b1, b2, c1, c2, d1, d2, m1, m2, p1, p2, v1, v2, ca1, ca2, ma1, ma2, dt1, dt2, eq1, eq2, l1, l2, lc1, lc2,
      x1, x2, y1, y2, z1, z2, w1, w2]
  intro f hf
  rcases List.mem_append.1 hf with hf | hf
  · rcases List.mem_append.1 hf with hf | hf
    · exact hv f hf
    · exact ha f hf
  · exact hh f hf

/-- nothing throws. Proof helper, not code. -/
private structure Still (A : Cls) : Prop where
  ctor : ¬ A.ctor.ends .throws
  allocate : ¬ A.allocate.ends .throws
  deallocate : ¬ A.deallocate.ends .throws
  assign : ∀ f, A.assign = some f → ¬ f.ends .throws
  maxSize : ∀ f, A.maxSize = some f → ¬ f.ends .throws

private theorem Still.passMax {A : Cls} (h : Still A) (f : Fn) (hf : A.maxSize.map pass = some f) : ¬ f.ends .throws := by
  obtain ⟨g, hg, rfl⟩ := Option.map_eq_some_iff.1 hf
  have := h.maxSize g hg
  simp [pass, this]

private theorem still_pair {e : Env} {P F : Cls} (hP : Still P) (hF : Still F) {al de : Fn} (h1 : ¬ al.ends .throws) (h2 : ¬ de.ends .throws) :
    Still (pair e P F al de) where
  ctor := by simp [pair, both, hP.ctor, hF.ctor]
  allocate := h1
  deallocate := h2
  assign := fun f hf => by
    obtain ⟨p, hp, hf⟩ := Option.bind_eq_some_iff.1 hf
    obtain ⟨g, hg, rfl⟩ := Option.map_eq_some_iff.1 hf
    simp [both, hP.assign p hp, hF.assign g hg]
  maxSize := fun f hf => by
    obtain ⟨p, hp, hf⟩ := Option.bind_eq_some_iff.1 hf
    obtain ⟨g, hg, rfl⟩ := Option.map_eq_some_iff.1 hf
    simp [both, hP.maxSize p hp, hF.maxSize g hg]

private theorem still_reference {A : Cls} (h : Still A) : Still (Exc.reference A) where
  ctor := by simp [Exc.reference]
  allocate := by simp [Exc.reference, pass, h.allocate]
  deallocate := by simp [Exc.reference, pass, h.deallocate]
  assign := fun f hf => by cases hf; simp
  maxSize := h.passMax

private theorem still_leaf : Still null ∧ Still malloc ∧ Still arena := by
  refine ⟨⟨?_, ?_, ?_, ?_, ?_⟩, ⟨?_, ?_, ?_, ?_, ?_⟩, ⟨?_, ?_, ?_, ?_, ?_⟩⟩ <;> simp [null, malloc, arena]

private theorem still_freelist {A : Cls} (h2 : Still A) : Still (Exc.freelist A) where
  ctor := by simp [Exc.freelist, h2.ctor]
  allocate := by simp [Exc.freelist, h2.allocate]
  deallocate := by simp [Exc.freelist]
  assign := fun f hf => by
    obtain ⟨g, hg, rfl⟩ := Option.map_eq_some_iff.1 hf
    simp [Exc.freelistRelease, h2.deallocate, h2.assign g hg]
  maxSize := h2.passMax

private theorem still_fallback {e : Env} {P F : Cls} (hi : Inv e P) (h2 : Still P) (h4 : Still F) : Still (Exc.fallback e P F) :=
  still_pair h2 h4 (by simp [h2.allocate, h4.allocate]) (by simp [h2.deallocate, h4.deallocate, hi.callOwns.2])

private theorem still_segragator {e : Env} {P F : Cls} (h2 : Still P) (h4 : Still F) : Still (Exc.segragator e P F) :=
  still_pair h2 h4 (by simp [h2.allocate, h4.allocate]) (by simp [h2.deallocate, h4.deallocate])

private theorem still_cascading {e : Env} {A : Cls} (hi : Inv e A) (h2 : Still A) : Still (Exc.cascading e A) := by
  have hd := hi.alignedDelete.2
  have hn : ¬ A.alignedNew.ends .throws := by simp [Cls.alignedNew, h2.ctor]
  have hm : ¬ callIf A.maxSize .throws := by
    cases hx : A.maxSize with
    | none => simp [callIf]
    | some g => exact h2.maxSize g hx
  refine ⟨?_, ?_, ?_, ?_, h2.passMax⟩
  · simp [Exc.cascading]
  · simp [Exc.cascading, hn, hm, h2.allocate]
  · simp [Exc.cascading, hd, hi.callOwns.2, h2.deallocate]
  · intro f hf
    cases hf
    simp [cascadingRelease, hd]

private theorem still_overflow {e : Env} {A : Cls} (hs : ¬ e.stream .throws) (h2 : Still A) : Still (Exc.overflow e A) where
  ctor := by simp [Exc.overflow, h2.ctor]
  allocate := by simp [Exc.overflow, h2.allocate]
  deallocate := by simp [Exc.overflow, h2.deallocate, hs]
  assign := fun f hf => by cases hf
  maxSize := h2.passMax

private theorem still_shared {e : Env} {A : Cls} (hi : Inv e A) (h2 : Still A) : Still (Exc.shared A) :=
  { still_reference h2 with
    ctor := by simp [Exc.shared, Cls.alignedNew, h2.ctor]
    assign := fun f hf => by
      cases hf
      simp [sharedDecrement, hi.alignedDelete.2] }

private theorem still_global {A : Cls} (h2 : Still A) : Still (Exc.global A) := { still_reference h2 with }

private theorem unlocked_careful {e : Env} (he : e.Honest) (hs : ¬ e.stream .throws) (t : Ty) (h : t.Unlocked = true) : t.Careful e ∧ Still (t.cls e) := by
  induction t with
  | null => exact ⟨trivial, still_leaf.1⟩
  | malloc => exact ⟨trivial, still_leaf.2.1⟩
  | arena => exact ⟨trivial, still_leaf.2.2⟩
  | user A => cases h
  | threaded A ih => cases h
  | freelist A ih => exact ⟨⟨(ih h).1, (ih h).2.deallocate⟩, still_freelist (ih h).2⟩
  | fallback P F ihP ihF =>
    have h' : P.Unlocked = true ∧ F.Unlocked = true := by rw [← Bool.and_eq_true]; exact h
    exact ⟨⟨(ihP h'.1).1, (ihF h'.2).1⟩, still_fallback (careful_inv he P (ihP h'.1).1) (ihP h'.1).2 (ihF h'.2).2⟩
  | segragator P F ihP ihF =>
    have h' : P.Unlocked = true ∧ F.Unlocked = true := by rw [← Bool.and_eq_true]; exact h
    exact ⟨⟨(ihP h'.1).1, (ihF h'.2).1⟩, still_segragator (ihP h'.1).2 (ihF h'.2).2⟩
  | cascading A ih => exact ⟨(ih h).1, still_cascading (careful_inv he A (ih h).1) (ih h).2⟩
  | overflow A ih => exact ⟨⟨(ih h).1, hs⟩, still_overflow hs (ih h).2⟩
  | shared A ih => exact ⟨(ih h).1, still_shared (careful_inv he A (ih h).1) (ih h).2⟩
  | reference A ih => exact ⟨(ih h).1, still_reference (ih h).2⟩
  | global A ih => exact ⟨⟨(ih h).1, (ih h).2.assign⟩, still_global (ih h).2⟩

/-- C77, containers: with any allocator composed of those of the library without `threaded` (and a stream of `overflow` that does not throw), and
elements that never throw, no function of a container throws or ends the program. -/
theorem C77_containers_unlocked {e : Env} {T : Elem} {t : Ty} (hs : e.stream = quiet) (hl : ¬ e.lock .terminates) (hT : T.Quiet) (ht : t.Unlocked = true) :
    ∀ f ∈ containerFns e T t, ¬ f.ends .throws ∧ ¬ f.ends .terminates := by
  have h1 : ¬ e.stream .terminates := by rw [hs]; simp
  have h2 : ¬ e.stream .throws := by rw [hs]; simp
  have hu := fun f hf => unlocked_careful (elem_honest hT h1 hl (f := f) hf) (e := T.env e f) h2 t ht
  refine C77_containers_partial h1 hl hT (fun f hf => (hu f hf).1) ?_
  have hst := (hu T.make (by simp)).2
  simp only [List.mem_cons, List.not_mem_nil, or_false, forall_eq_or_imp, forall_eq]
  exact ⟨hst.ctor, hst.allocate, hst.deallocate⟩

/-- elements that never throw: numbers. Specification, not code. -/
def Exc.number : Elem := ⟨plain, plain, plain, plain, plain, plain, plain, plain, plain⟩

theorem Exc.number_quiet : number.Quiet where
  quiet := by simp [number]
  nothrow := by simp [number]

example : number.Quiet ∧ (Ty.freelist (.fallback .arena (.cascading (.shared .malloc)))).Unlocked = true := ⟨number_quiet, rfl⟩

/-- C77, containers: the constructors of `trivial_vector` and `trivial_array` with a size or values, and `resize` and `assign` of `trivial_array`,
let the exceptions of `allocate` out to the caller and do not end the program, with any allocator composed with care. -/
theorem C77_exceptions_get_out {e : Env} {T : Elem} {t : Ty} (hs : ¬ e.stream .terminates) (hl : ¬ e.lock .terminates) (hT : T.Quiet)
    (ht : t.Careful (T.env e T.make)) :
    ∀ f ∈ [Vec.ctorN e T t, Arr.ctorN e T t, Arr.resize e T t], ¬ f.ends .terminates ∧
      ((t.cls (T.env e T.make)).allocate.ends .throws → f.ends .throws) := by
  have hi := careful_inv (elem_honest hT hs hl (f := T.make) (by simp)) t ht
  have a2 : ¬ traitsCtor e T t .terminates := hi.ctor.term
  have b2 : ¬ traitsAllocate e T t .terminates := hi.allocate.pass.term
  have c2 : ¬ traitsDeallocate e T t .terminates := hi.deallocate.pass.term
  have b1 : (t.cls (T.env e T.make)).allocate.ends .throws → traitsAllocate e T t .throws := by
    intro h
    have hn : (t.cls (T.env e T.make)).allocate.nothrow = false := by
      cases hn : (t.cls (T.env e T.make)).allocate.nothrow with
      | false => rfl
      | true => exact absurd h (hi.allocate.honest hn)
    simp [traitsAllocate, pass, hn, h]
  intro f hf
  simp only [List.mem_cons, List.not_mem_nil, or_false] at hf
  rcases hf with rfl | rfl | rfl
  · exact ⟨by simp [Vec.ctorN, a2, b2], fun h => by simp [Vec.ctorN, b1 h]⟩
  · exact ⟨by simp [Arr.ctorN, a2, b2], fun h => by simp [Arr.ctorN, b1 h]⟩
  · exact ⟨by simp [Arr.resize, b2, c2], fun h => by simp [Arr.resize, b1 h]⟩

/-- an allocator whose lock can fail -/
example : (Ty.threaded .malloc).Careful (number.env riskyEnv number.make) ∧
    ((Ty.threaded .malloc).cls (number.env riskyEnv number.make)).allocate.ends .throws := by
  simp [Ty.Careful, Ty.cls, Exc.threaded, Elem.env, riskyEnv, risky]

/-! ## Where the containers break it -/

/-- C77, false for the containers with an allocator whose `allocate` can throw, and says so (like `threaded`, or `std::allocator`): the functions that
allocate are declared `noexcept`. -/
theorem C77_containers_allocate_false (e : Env) (T : Elem) (t : Ty) (hn : (t.cls (T.env e T.make)).allocate.nothrow = false)
    (h : (t.cls (T.env e T.make)).allocate.ends .throws) :
    ∀ f ∈ [Vec.copy e T t, Vec.moveWith e T t, Vec.assign e T t, Vec.reserve e T t, Vec.resize e T t, Vec.pushBack e T t, Vec.emplaceBack e T t,
        Arr.copy e T t, Arr.moveWith e T t, Arr.assign e T t, Heap.reserve e T t, Heap.insert e T t T.make, Heap.insert e T t T.copy],
      f.ends .terminates := by
  have ha : traitsAllocate e T t .throws := by simp [traitsAllocate, pass, hn, h]
  simp [Vec.copy, Vec.moveWith, Vec.assign, Vec.reserve, Vec.resize, Vec.pushBack, Vec.emplaceBack, Vec.expand, Vec.setSize, Arr.copy, Arr.moveWith,
    Arr.assign, Heap.reserve, Heap.insert, Heap.expand, Heap.setSize, ha]

/-- C77, false for the containers with an allocator whose `deallocate` can throw, and says so: destructors and move assignments. -/
theorem C77_containers_deallocate_false (e : Env) (T : Elem) (t : Ty) (hn : (t.cls (T.env e T.make)).deallocate.nothrow = false)
    (h : (t.cls (T.env e T.make)).deallocate.ends .throws) :
    ∀ f ∈ [Vec.dtor e T t, Vec.moveAssign e T t, Arr.dtor e T t, Arr.moveAssign e T t], f.ends .terminates := by
  have ha : traitsDeallocate e T t .throws := by simp [traitsDeallocate, pass, hn, h]
  simp [Vec.dtor, Vec.moveAssign, Arr.dtor, Arr.moveAssign, ha]

example : let A := ((Ty.threaded .malloc).cls (number.env riskyEnv number.make))
    (A.allocate.nothrow = false ∧ A.allocate.ends .throws) ∧ A.deallocate.nothrow = false ∧ A.deallocate.ends .throws := by
  simp [Ty.cls, Exc.threaded, Elem.env, riskyEnv, risky]

/-- elements that can be moved without exceptions, but not copied, as `std::string`: copy constructor and copy assignment allocate.
Specification, not code. -/
def Exc.text : Elem := { number with make := risky, copy := risky, copyAssign := risky }

/-- C77, false for `binary_heap` with elements like strings, over `mallocator`: `insert`, `pop` and the move constructor with an allocator copy elements, but are `noexcept` (the last because moving does not throw). -/
theorem C77_heap_copies_false (e : Env) :
    (Heap.insert e text .malloc text.move).ends .terminates ∧ (Heap.pop e text .malloc).ends .terminates
    ∧ (Heap.moveWith e text .malloc).ends .terminates := by
  simp [Heap.insert, Heap.percolateUp, Heap.pop, Heap.moveWith, Heap.fill, traitsConstruct, traitsAllocate, Ty.cls, malloc, null, text, number, risky, pass]

/-- C77, false for the copy assignment of `binary_heap`: it constructs copies, but is `noexcept` if assigning a copy is. -/
theorem C77_heap_assign_false (e : Env) (T : Elem) (hn : T.copyAssign.nothrow = true) (h : T.copy.ends .throws) (hl : T.lessCopy.ends .returns) :
    (Heap.assign e T .malloc).ends .terminates := by
  simp [Heap.assign, Heap.drop, Heap.fill, traitsConstruct, traitsAllocate, Ty.cls, malloc, null, pass, hn, h, hl]

/-- C77, false for `binary_heap` with a comparator or an `==` that can throw: `insert` and `find` are `noexcept`. -/
theorem C77_heap_compare_false (e : Env) :
    (Heap.insert e { number with less := risky } .malloc plain).ends .terminates ∧ (Heap.find { number with eq := risky }).ends .terminates := by
  simp [Heap.insert, Heap.percolateUp, Heap.find, traitsConstruct, Ty.cls, malloc, null, number, risky]

end KTL
