import Verif.Exc.Model

/-! # Exceptions and `noexcept`: `type_allocator` and the containers

As in `Exc/Model.lean`. Copies and moves of the allocator of a container do not throw (`allocators/type_allocator.h:24-27` asserts it); the
default constructor of the allocator can. The getters, iterators and `[]` are `noexcept` and call nothing. -/

namespace KTL.Exc

/-- `type_allocator(Args&&...)` (`allocators/type_allocator.h:52-57`): `nothrowT` is `is_nothrow_constructible_v<T, Args...>`, of the type `T`
of the elements -/
def typedCtor (nothrowT : Bool) (A : Cls) : Fn := fn nothrowT A.ctor.ends

/-- The type of the elements of a container and its comparator: constructor from arguments (or from the `V` of `insert`), copy and move
constructor, copy and move assignment, destructor, `==`, the comparator, copying or assigning a comparator. Specification, not code. -/
structure Elem where
  make : Fn
  copy : Fn
  move : Fn
  copyAssign : Fn
  moveAssign : Fn
  dtor : Fn
  eq : Fn
  less : Fn
  lessCopy : Fn

/-- an environment in which `construct` is called for the constructor `f`. Specification, not code. -/
def Elem.env (T : Elem) (e : Env) (f : Fn) : Env := { e with make := f, unmake := T.dtor }

/-- `Traits::construct` for the constructor `f` of `T`: `std::allocator_traits`, that uses the `construct` of the allocator if there is one
(`allocators/type_allocator.h:124-130`) -/
def traitsConstruct (e : Env) (T : Elem) (t : Ty) (f : Fn) : Ends :=
  match (t.cls (T.env e f)).construct with
  | some c => c.ends
  | none => f.ends

/-- `Traits::destroy` (`allocators/type_allocator.h:137-143`) -/
def traitsDestroy (e : Env) (T : Elem) (t : Ty) : Ends :=
  match (t.cls (T.env e T.make)).destroy with
  | some c => c.ends
  | none => T.dtor.ends

/-- `type_allocator::allocate` (`allocators/type_allocator.h:98-102`) -/
def traitsAllocate (e : Env) (T : Elem) (t : Ty) : Ends := (pass (t.cls (T.env e T.make)).allocate).ends

/-- `type_allocator::deallocate` (`allocators/type_allocator.h:109-113`) -/
def traitsDeallocate (e : Env) (T : Elem) (t : Ty) : Ends := (pass (t.cls (T.env e T.make)).deallocate).ends

/-- the default constructor of the allocator (`allocators/type_allocator.h:47`, defaulted) -/
def traitsCtor (e : Env) (T : Elem) (t : Ty) : Ends := (t.cls (T.env e T.make)).ctor.ends

/-! ## `trivial_vector`: the elements are trivially copyable, copying them does not throw -/

namespace Vec

variable (e : Env) (T : Elem) (t : Ty)

/-- `set_size` (`containers/trivial_vector.h:443-459`) -/
def setSize : Fn := fn true (seq (traitsAllocate e T t) (alt quiet (traitsDeallocate e T t)))

/-- `expand` (`containers/trivial_vector.h:435-441`) -/
def expand : Fn := fn true (setSize e T t).ends

/-- default constructor (`containers/trivial_vector.h:39-43`) -/
def ctor : Fn := fn true (traitsCtor e T t)

/-- constructors with a size or a range, and the default argument `Alloc()` (`containers/trivial_vector.h:60-114`) -/
def ctorN : Fn := fn false (seq (alt quiet (traitsCtor e T t)) (traitsAllocate e T t))

/-- copy constructors (`containers/trivial_vector.h:116-124,137-145`) -/
def copy : Fn := fn true (traitsAllocate e T t)

/-- move constructor (`containers/trivial_vector.h:126-135`) -/
def move : Fn := fn true quiet

/-- move constructor with an allocator (`containers/trivial_vector.h:147-164`) -/
def moveWith : Fn := fn true (seq (traitsAllocate e T t) (alt quiet (traitsDeallocate e T t)))

/-- destructor (`containers/trivial_vector.h:166-170`) and that of the allocator -/
def dtor : Fn := fn true (seq (alt quiet (traitsDeallocate e T t)) (t.cls (T.env e T.make)).dtor.ends)

/-- copy assignment (`containers/trivial_vector.h:172-189`) -/
def assign : Fn := fn true (seq (alt quiet (traitsDeallocate e T t)) (traitsAllocate e T t))

/-- move assignment (`containers/trivial_vector.h:191-205`) -/
def moveAssign : Fn := fn true (alt quiet (traitsDeallocate e T t))

/-- `resize` (`containers/trivial_vector.h:285-291`) -/
def resize : Fn := fn true (alt quiet (expand e T t).ends)

/-- `reserve` (`containers/trivial_vector.h:297-301`) -/
def reserve : Fn := fn true (alt quiet (setSize e T t).ends)

/-- `push_back` (`containers/trivial_vector.h:308-350`) -/
def pushBack : Fn := fn true (alt quiet (expand e T t).ends)

/-- `emplace_back`, `emplace` (`containers/trivial_vector.h:359-366,376-387`) -/
def emplaceBack : Fn := fn true (seq (alt quiet (expand e T t).ends) T.make.ends)

/-- `erase`, `pop_back`, `clear` (`containers/trivial_vector.h:394-432`) -/
def erase : Fn := fn true quiet

/-- all functions. Specification, not code. -/
def members : List Fn :=
  [setSize e T t, expand e T t, ctor e T t, ctorN e T t, copy e T t, move, moveWith e T t, dtor e T t, assign e T t, moveAssign e T t,
   resize e T t, reserve e T t, pushBack e T t, emplaceBack e T t, erase]

end Vec

/-! ## `trivial_array` -/

namespace Arr

variable (e : Env) (T : Elem) (t : Ty)

/-- default constructor (`containers/trivial_array.h:39-42`) -/
def ctor : Fn := fn true (traitsCtor e T t)

/-- constructors with a size or a range, and the default argument `Alloc()` (`containers/trivial_array.h:58-108`) -/
def ctorN : Fn := fn false (seq (alt quiet (traitsCtor e T t)) (traitsAllocate e T t))

/-- copy constructors (`containers/trivial_array.h:110-117,128-135`) -/
def copy : Fn := fn true (traitsAllocate e T t)

/-- move constructor (`containers/trivial_array.h:119-126`) -/
def move : Fn := fn true quiet

/-- move constructor with an allocator (`containers/trivial_array.h:137-152`) -/
def moveWith : Fn := fn true (seq (traitsAllocate e T t) (alt quiet (traitsDeallocate e T t)))

/-- destructor (`containers/trivial_array.h:154-158`) and that of the allocator -/
def dtor : Fn := fn true (seq (alt quiet (traitsDeallocate e T t)) (t.cls (T.env e T.make)).dtor.ends)

/-- copy assignment (`containers/trivial_array.h:160-176`) -/
def assign : Fn := fn true (seq (alt quiet (traitsDeallocate e T t)) (traitsAllocate e T t))

/-- move assignment (`containers/trivial_array.h:178-190`) -/
def moveAssign : Fn := fn true (alt quiet (traitsDeallocate e T t))

/-- `resize`, `assign` (`containers/trivial_array.h:264-303`): not `noexcept` -/
def resize : Fn := fn false (alt quiet (seq (traitsAllocate e T t) (alt quiet (traitsDeallocate e T t))))

/-- all functions. Specification, not code. -/
def members : List Fn :=
  [ctor e T t, ctorN e T t, copy e T t, move, moveWith e T t, dtor e T t, assign e T t, moveAssign e T t, resize e T t]

end Arr

/-! ## `binary_heap` -/

namespace Heap

variable (e : Env) (T : Elem) (t : Ty)

/-- destroys the elements and gives back their memory (as in `containers/binary_heap.h:176-182`) -/
def drop : Ends := alt quiet (seq (loop (traitsDestroy e T t)) (traitsDeallocate e T t))

/-- allocates and copies the elements (as in `containers/binary_heap.h:125-128`) -/
def fill : Ends := seq (traitsAllocate e T t) (loop (traitsConstruct e T t T.copy))

/-- `set_size` (`containers/binary_heap.h:374-397`) -/
def setSize : Fn := fn true (seq (traitsAllocate e T t)
  (alt quiet (seq (loop (traitsConstruct e T t T.move)) (seq (loop (traitsDestroy e T t)) (traitsDeallocate e T t)))))

/-- `expand` (`containers/binary_heap.h:366-372`) -/
def expand : Fn := fn true (setSize e T t).ends

/-- `percolateUp` (`containers/binary_heap.h:414-427`): `std::move(value)` of a constant copies -/
def percolateUp : Fn := fn false (seq T.copy.ends (seq (loop (seq T.less.ends T.moveAssign.ends)) (seq T.copyAssign.ends T.dtor.ends)))

/-- `percolateDown` (`containers/binary_heap.h:429-459`): `std::move` of a constant copies -/
def percolateDown : Fn := fn true (seq T.copy.ends
  (seq (loop (seq (alt quiet T.less.ends) (seq (alt quiet T.less.ends)
      (alt quiet (seq T.move.ends (seq T.moveAssign.ends (seq T.copyAssign.ends T.dtor.ends)))))))
    (seq T.copyAssign.ends T.dtor.ends)))

/-- constructor with a comparator (`containers/binary_heap.h:43-60`) -/
def ctor : Fn := fn true (seq (alt quiet (traitsCtor e T t)) T.lessCopy.ends)

/-- constructors with a capacity (`containers/binary_heap.h:67-85`) -/
def ctorN : Fn := fn true (seq (alt quiet (traitsCtor e T t)) (seq T.lessCopy.ends (traitsAllocate e T t)))

/-- `insert` (`containers/binary_heap.h:297-308`) for an element made with `f` -/
def insert (f : Fn) : Fn := fn true (seq (alt quiet (expand e T t).ends) (seq (traitsConstruct e T t f) (percolateUp T).ends))

/-- constructors with a list (`containers/binary_heap.h:92-118`): not `noexcept` -/
def ctorList : Fn := fn false (seq (alt quiet (traitsCtor e T t)) (seq T.lessCopy.ends (seq (traitsAllocate e T t)
  (loop (seq T.copy.ends (seq (insert e T t T.copy).ends T.dtor.ends))))))

/-- copy constructors (`containers/binary_heap.h:120-129,143-152`) -/
def copy : Fn := fn (T.copy.nothrow && T.dtor.nothrow) (seq T.lessCopy.ends (fill e T t))

/-- move constructor (`containers/binary_heap.h:131-141`) -/
def move : Fn := fn (T.move.nothrow && T.dtor.nothrow) T.lessCopy.ends

/-- move constructor with an allocator (`containers/binary_heap.h:154-171`): copies the elements -/
def moveWith : Fn := fn (T.move.nothrow && T.dtor.nothrow) (seq T.lessCopy.ends (seq (fill e T t) (alt quiet (traitsDeallocate e T t))))

/-- destructor (`containers/binary_heap.h:173-183`) and that of the allocator; no specification: that of the members -/
def dtor : Fn := fn (t.cls (T.env e T.make)).dtor.nothrow (seq (drop e T t) (t.cls (T.env e T.make)).dtor.ends)

/-- copy assignment (`containers/binary_heap.h:185-206`): constructs the elements -/
def assign : Fn := fn T.copyAssign.nothrow (seq (drop e T t) (seq T.lessCopy.ends (fill e T t)))

/-- move assignment (`containers/binary_heap.h:208-230`) -/
def moveAssign : Fn := fn T.moveAssign.nothrow (seq (drop e T t) T.lessCopy.ends)

/-- `reserve` (`containers/binary_heap.h:285-289`) -/
def reserve : Fn := fn true (alt quiet (setSize e T t).ends)

/-- `pop` (`containers/binary_heap.h:325-336`) -/
def pop : Fn := fn true (seq T.copy.ends (seq T.moveAssign.ends (seq (traitsDestroy e T t) (percolateDown T).ends)))

/-- `find` (`containers/binary_heap.h:343-352`) -/
def find : Fn := fn true (loop T.eq.ends)

/-- `clear` (`containers/binary_heap.h:357-363`) -/
def clear : Fn := fn true (loop (traitsDestroy e T t))

/-- all functions. Specification, not code. -/
def members : List Fn :=
  [setSize e T t, expand e T t, percolateUp T, percolateDown T, ctor e T t, ctorN e T t, ctorList e T t, copy e T t, move T, moveWith e T t,
   dtor e T t, assign e T t, moveAssign e T t, reserve e T t, insert e T t T.make, insert e T t T.copy, insert e T t T.move, pop e T t,
   find T, clear e T t]

end Heap

end KTL.Exc
