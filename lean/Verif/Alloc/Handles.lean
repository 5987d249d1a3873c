import Verif.Alloc.Ty

/- Handle classes: `stack_allocator`, `reference` and `global` objects are small values through which a
client uses an allocator object that lives elsewhere. Also `type_allocator` and the comparison
operators of all classes. -/
namespace KTL

/-- The calls a client can make on an allocator object. Specification, not code. -/
inductive Call where
  | allocate (n : Nat)
  | deallocate (p n : Nat)
  | construct (p : Nat)
  | destroy (p : Nat)
  | owns (p : Nat)
  | max_size
  deriving DecidableEq, Repr

/-- What a call returns. `absent`: the class has no such member. Specification, not code. -/
inductive Ret where
  | ptr (p : Nat)
  | unit
  | bool (b : Bool)
  | size (n : Nat)
  | absent
  deriving DecidableEq, Repr

/-- A call on an allocator object with fields `s` (specification: the plain meaning of a member call).
Specification, not code. -/
def Allocator.call (A : Allocator) (s : A.St) : Call → M (Ret × A.St)
  | .allocate n => do let r ← A.alloc s n; pure (.ptr r.1, r.2)
  | .deallocate p n => do let s' ← A.dealloc s p n; pure (.unit, s')
  | .construct p =>
    match A.construct with
    | some c => do let s' ← c s p; pure (.unit, s')
    | none => pure (.absent, s)
  | .destroy p =>
    match A.destroy with
    | some c => do let s' ← c s p; pure (.unit, s')
    | none => pure (.absent, s)
  | .owns p =>
    match A.owns with
    | some f => pure (.bool (f s p), s)
    | none => pure (.absent, s)
  | .max_size =>
    match A.maxSize with
    | some f =>
      match f s with
      | some m => pure (.size m, s)
      | none => M.ub
    | none => pure (.absent, s)

/-- A sequence of calls on one allocator object. Specification, not code. -/
def Allocator.calls (A : Allocator) (s : A.St) : List Call → M (List Ret × A.St)
  | [] => pure ([], s)
  | c :: cs => do
    let r ← A.call s c
    let t ← A.calls r.2 cs
    pure (r.1 :: t.1, t.2)

/-- What a program can do with handles; `i`, `j` are positions in the list of existing handles.
`allocators/reference.h:26-109`, `allocators/stack_allocator.h:38-108`. -/
inductive HOp where
  /-- copy construction: a new handle, appended to the list -/
  | copy (i : Nat)
  /-- move construction -/
  | move (i : Nat)
  /-- `handle_i = handle_j` -/
  | assign (i j : Nat)
  /-- `handle_i = std::move(handle_j)` -/
  | moveAssign (i j : Nat)
  /-- the handle goes out of scope -/
  | drop (i : Nat)
  /-- a call through a handle -/
  | call (i : Nat) (c : Call)
  deriving DecidableEq, Repr

/-- Allocator objects (by address) and the pointers stored in the handles.
The pointer is `m_Alloc` of `allocators/reference.h:122` or `m_Block` of `allocators/stack_allocator.h:112`. -/
structure Handles (A : Allocator) where
  objs : Nat → A.St
  ptrs : List Nat

/-- Proof helper, not code. -/
def upd {α} (f : Nat → α) (k : Nat) (v : α) : Nat → α := fun x => if x = k then v else f x

/-- A call through a handle: `m_Alloc->f(...)` (`allocators/reference.h:62-109`), and for
`stack_allocator` the member functions, which work on `*m_Block` (`allocators/stack_allocator.h:63-108`).
Constructors and assignments copy the pointer (`allocators/reference.h:26-47`,
`allocators/stack_allocator.h:38-50`); moving does not reset the source. -/
def Handles.step {A : Allocator} (h : Handles A) : HOp → M (Handles A × List Ret)
  | .copy i | .move i =>
    match h.ptrs[i]? with
    | some k => pure (⟨h.objs, h.ptrs ++ [k]⟩, [])
    | none => pure (h, [])
  | .assign i j | .moveAssign i j =>
    match h.ptrs[j]? with
    | some k => pure (⟨h.objs, h.ptrs.set i k⟩, [])
    | none => pure (h, [])
  | .drop i => pure (⟨h.objs, h.ptrs.eraseIdx i⟩, [])
  | .call i c =>
    match h.ptrs[i]? with
    | some k => do
      let r ← A.call (h.objs k) c
      pure (⟨upd h.objs k r.2, h.ptrs⟩, [r.1])
    | none => pure (h, [])

/-- Specification, not code. -/
def Handles.run {A : Allocator} (h : Handles A) : List HOp → M (Handles A × List Ret)
  | [] => pure (h, [])
  | o :: os => do
    let r ← h.step o
    let t ← r.1.run os
    pure (t.1, r.2 ++ t.2)

/-- `global<Alloc>`: the one static object `s_Alloc` and the number of `global` instances, which have no
fields (`allocators/global.h:24-40`, calls `53-101`, `s_Alloc` `118`). `set_allocator` (`102-105`) is in
`Spec/Global.lean`. -/
structure Globals (A : Allocator) where
  obj : A.St
  instances : Nat

/-- Forwarded calls `allocators/global.h:52-100` on the object `s_Alloc`. -/
def Globals.step {A : Allocator} (g : Globals A) : HOp → M (Globals A × List Ret)
  | .copy i | .move i => pure (if i < g.instances then ⟨g.obj, g.instances + 1⟩ else g, [])
  | .assign _ _ | .moveAssign _ _ => pure (g, [])
  | .drop i => pure (if i < g.instances then ⟨g.obj, g.instances - 1⟩ else g, [])
  | .call i c =>
    if i < g.instances then do
      let r ← A.call g.obj c
      pure (⟨r.2, g.instances⟩, [r.1])
    else pure (g, [])

/-- Specification, not code. -/
def Globals.run {A : Allocator} (g : Globals A) : List HOp → M (Globals A × List Ret)
  | [] => pure (g, [])
  | o :: os => do
    let r ← g.step o
    let t ← r.1.run os
    pure (t.1, r.2 ++ t.2)

/-! ### `type_allocator<T, Alloc>` -/

/-- `allocators/type_allocator.h:98-102` `allocate`, in objects of `sizeof(T) = sz` bytes -/
def typedAlloc (sz : Nat) (A : Allocator) (s : A.St) (n : Nat) : M (Nat × A.St) := A.alloc s (mulW sz n)

/-- `allocators/type_allocator.h:109-113` `deallocate` -/
def typedDealloc (sz : Nat) (A : Allocator) (s : A.St) (p n : Nat) : M A.St := A.dealloc s p (mulW sz n)

/-- `allocators/type_allocator.h:154-158` `max_size` -/
def typedMax (sz : Nat) (A : Allocator) : Option (A.St → Option Nat) :=
  A.maxSize.map fun f s => (f s).map (· / sz)

/-! ### `operator==` and `operator!=` -/

/-- The parts of allocator objects that the comparison operators look at. For classes that compare
through a pointer, the pointer and the object it points to (`none`: null pointer). See `Val.eq` for the operators. -/
inductive Val where
  | null
  | mallocator
  | linear (data : Nat)
  | stack (block : Nat)
  | freelist (alloc : Val) (free : Nat)
  | fallback (p f : Val)
  | segragator (p f : Val)
  | cascading (node : Nat)
  | overflow (alloc : Val)
  | threaded (alloc : Val)
  | sharedNull
  | shared (block : Nat) (alloc : Val)
  | reference (ptr : Nat) (alloc : Val)
  | global
  | typed (alloc : Val)
  deriving DecidableEq, Repr

/-- `a && b` on outcomes; `none` is undefined behaviour. C++ machine, not library code. -/
def andO (a : Bool) (b : Option Bool) : Option Bool := if a then b else some false
/-- `a || b`. C++ machine, not library code. -/
def orO (a : Bool) (b : Option Bool) : Option Bool := if a then some true else b

/-- `operator==`. `none`: undefined behaviour, or operands of different type (which does not compile).
`null_allocator.h:24-27`, `mallocator.h:28-31`, `linear_allocator.h:59-62`, `stack_allocator.h:52-55`,
`freelist.h:93-97`, `fallback.h:87-91`, `segragator.h:84-88`, `cascading.h:76-79`, `overflow.h:84-88`,
`threaded.h:48-52`, `shared.h:119-123`, `reference.h:49-53`, `global.h:42-45`,
`type_allocator.h:197-202`. -/
def Val.eq : Val → Val → Option Bool
  | .null, .null => some true
  | .mallocator, .mallocator => some true
  | .linear a, .linear b => some (a == b)
  | .stack a, .stack b => some (a == b)
  | .freelist a x, .freelist b y => (a.eq b).bind fun r => andO r (some (x == y))
  | .fallback a x, .fallback b y => (a.eq b).bind fun r => andO r (x.eq y)
  | .segragator a x, .segragator b y => (a.eq b).bind fun r => andO r (x.eq y)
  | .cascading a, .cascading b => some (a == b)
  | .overflow a, .overflow b => a.eq b
  | .threaded a, .threaded b => a.eq b
  | .shared a x, .shared b y => andO (a == b) (x.eq y)
  | .sharedNull, .sharedNull => none
  | .shared _ _, .sharedNull => some false
  | .sharedNull, .shared _ _ => some false
  | .reference a x, .reference b y => andO (a == b) (x.eq y)
  | .global, .global => some true
  | .typed a, .typed b => a.eq b
  | _, _ => none

/-- `operator!=`. `null_allocator.h:29-32`, `mallocator.h:33-36`, `linear_allocator.h:64-67`,
`stack_allocator.h:57-60`, `freelist.h:99-103`, `fallback.h:93-97`, `segragator.h:90-94`,
`cascading.h:81-84`, `overflow.h:90-94`, `threaded.h:54-58`, `shared.h:125-129`, `reference.h:55-59`,
`global.h:47-50`, `type_allocator.h:204-209`. -/
def Val.ne : Val → Val → Option Bool
  | .null, .null => some false
  | .mallocator, .mallocator => some false
  | .linear a, .linear b => some (a != b)
  | .stack a, .stack b => some (a != b)
  | .freelist a x, .freelist b y => (a.ne b).bind fun r => orO r (some (x != y))
  | .fallback a x, .fallback b y => (a.ne b).bind fun r => orO r (x.ne y)
  | .segragator a x, .segragator b y => (a.ne b).bind fun r => orO r (x.ne y)
  | .cascading a, .cascading b => some (a != b)
  | .overflow a, .overflow b => a.ne b
  | .threaded a, .threaded b => a.ne b
  | .shared a x, .shared b y => orO (a != b) (x.ne y)
  | .sharedNull, .sharedNull => none
  | .shared _ _, .sharedNull => some true
  | .sharedNull, .shared _ _ => some true
  | .reference a x, .reference b y => orO (a != b) (x.ne y)
  | .global, .global => some true
  | .typed a, .typed b => a.ne b
  | _, _ => none

end KTL
