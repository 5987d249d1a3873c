/-! # Exceptions and `noexcept`

The exception specifications of the allocator classes and what their functions call, function by function. `std::terminate` is called
when an exception leaves a function declared `noexcept`.

Simplified: which branch a function takes, and how often a loop runs, is left open (both outcomes of every run-time `if` are possible
ends); `if constexpr` is followed exactly. Destructors run by stack unwinding do not throw. The copy constructors and copy assignments of
the allocators are left out (those of `shared` are as its move assignment). `noexcept` getters (`get_allocator`, `get_stream`) call
nothing. Nothing here allocates: the results of the functions do not matter, only how they end. -/

namespace KTL.Exc

/-- How a call ends. Specification, not code. -/
inductive Out where
  | returns
  | throws
  | terminates
  deriving DecidableEq, Repr

/-- The ways in which a piece of code can end. Specification, not code. -/
abbrev Ends := Out → Prop

/-- code that calls nothing that could throw. Specification, not code. -/
def quiet : Ends := fun o => o = .returns

/-- `a; b`. Specification, not code. -/
def seq (a b : Ends) : Ends := fun o => (a o ∧ o ≠ .returns) ∨ (a .returns ∧ b o)

/-- `if (…) a; else b;`. Specification, not code. -/
def alt (a b : Ends) : Ends := fun o => a o ∨ b o

/-- `while (…) a;`. Specification, not code. -/
def loop (a : Ends) : Ends := fun o => o = .returns ∨ (a o ∧ o ≠ .returns)

/-- A function: whether it is declared `noexcept`, and how calls of it end. Specification, not code. -/
structure Fn where
  nothrow : Bool
  ends : Ends

/-- A function with the exception specification `noexcept(nothrow)` and the given body: an exception that reaches the end of the body
leaves the function, or terminates the program. Specification, not code. -/
def fn (nothrow : Bool) (body : Ends) : Fn where
  nothrow := nothrow
  ends
    | .returns => body .returns
    | .throws => nothrow = false ∧ body .throws
    | .terminates => body .terminates ∨ (nothrow = true ∧ body .throws)

/-- a function that is `noexcept` and calls nothing. Specification, not code. -/
def plain : Fn := fn true quiet

/-- call a member if it exists (`if constexpr`). Specification, not code. -/
def callIf : Option Fn → Ends
  | some f => f.ends
  | none => quiet

/-- `has_x_v<A> && noexcept(x)`: `utility/meta.h:84-133` -/
def hasNothrow : Option Fn → Bool
  | some f => f.nothrow
  | none => false

/-- `!has_x_v<A> || has_nothrow_x_v<A>`: as in `allocators/fallback.h:126-127` -/
def noneOrNothrow : Option Fn → Bool
  | some f => f.nothrow
  | none => true

/-- An untyped allocator class: its functions. `move`, `assign`: move constructor and move assignment, unless deleted; `construct`, `destroy`
(for the type `T` of the environment), `maxSize`, `owns`: if the class has them. Specification, not code. -/
structure Cls where
  ctor : Fn
  move : Option Fn
  assign : Option Fn
  dtor : Fn
  eq : Fn
  ne : Fn
  allocate : Fn
  deallocate : Fn
  construct : Option Fn
  destroy : Option Fn
  maxSize : Option Fn
  owns : Option Fn

/-- What a program uses the library with: constructor and destructor of the type `T` of the objects, the stream of `overflow`, the lock of
`threaded` (`std::mutex::lock` may throw `std::system_error`). Specification, not code. -/
structure Env where
  make : Fn
  unmake : Fn
  stream : Ends
  lock : Ends

/-- `std::is_nothrow_constructible_v<T, Args...>`: construction and destruction. Specification, not code. -/
def Env.nothrowMake (e : Env) : Bool := e.make.nothrow && e.unmake.nothrow

namespace Cls

/-- `std::is_nothrow_default_constructible_v<A>`: construction and destruction. Specification, not code. -/
def nothrowCtor (A : Cls) : Bool := A.ctor.nothrow && A.dtor.nothrow

/-- `has_nothrow_equal_v` (`utility/meta.h:83-85`) -/
def nothrowEq (A : Cls) : Bool := A.eq.nothrow

/-- `has_nothrow_not_equal_v` (`utility/meta.h:87-89`): looks at `==` -/
def nothrowNe (A : Cls) : Bool := A.eq.nothrow

/-- `aligned_new<node>` with a constructor that only constructs the `Alloc` member (`utility/aligned_malloc.h:88-95`) -/
def alignedNew (A : Cls) : Fn := fn A.nothrowCtor A.ctor.ends

/-- `aligned_delete` (`utility/aligned_malloc.h:97-103`) -/
def alignedDelete (A : Cls) : Fn := fn A.dtor.nothrow A.dtor.ends

end Cls

/-- `null_allocator` (`allocators/null_allocator.h:14-51`): every function is `noexcept` -/
def null : Cls where
  ctor := plain
  move := some plain
  assign := some plain
  dtor := plain
  eq := plain
  ne := plain
  allocate := plain
  deallocate := plain
  construct := none
  destroy := none
  maxSize := none
  owns := some plain

/-- `mallocator` (`allocators/mallocator.h:17-48`) -/
def malloc : Cls := { null with owns := none }

/-- `linear_allocator` (`allocators/linear_allocator.h:20-143`), `stack_allocator` (`allocators/stack_allocator.h:39-112`) -/
def arena : Cls := { null with maxSize := some plain }

/-- members that are passed on to `A` with the exception specification of `A`. Specification, not code. -/
def pass (f : Fn) : Fn := fn f.nothrow f.ends

/-- `freelist::release` (`allocators/freelist.h:228-238`) -/
def freelistRelease (A : Cls) : Fn := fn A.deallocate.nothrow (loop A.deallocate.ends)

/-- `freelist` (`allocators/freelist.h`) -/
def freelist (A : Cls) : Cls where
  ctor := fn A.nothrowCtor A.ctor.ends                                          -- 40-44
  move := A.move.map fun m => fn (m.nothrow && A.dtor.nothrow) m.ends           -- 59-68
  assign := A.assign.map fun m => fn m.nothrow (seq (freelistRelease A).ends m.ends)  -- 77-91
  dtor := fn A.dtor.nothrow (seq (freelistRelease A).ends A.dtor.ends)          -- 70-73; no specification: that of the members
  eq := fn A.nothrowEq A.eq.ends                                                -- 93-97
  ne := fn A.nothrowNe A.ne.ends                                                -- 99-103
  allocate := fn A.allocate.nothrow (alt quiet A.allocate.ends)                 -- 113-129
  deallocate := plain                                                           -- 137-147
  construct := A.construct.map pass                                             -- 158-164
  destroy := A.destroy.map pass                                                 -- 171-177
  maxSize := A.maxSize.map pass                                                 -- 186-192
  owns := A.owns.map pass                                                       -- 200-206

/-- `construct`, `destroy` of `fallback` and `segragator` (`allocators/fallback.h:123-181`, `allocators/segragator.h:116-175`): for the
members `p`, `f` of the two parts, the `owns` of the primary and constructor or destructor of `T` -/
def routed (p f : Option Fn) (owns : Fn) (obj : Fn) (nothrowObj : Bool) : Option Fn :=
  if p.isNone && f.isNone then none
  else some (fn (noneOrNothrow p && noneOrNothrow f && nothrowObj)
    (seq owns.ends (alt (match p with | some p => p.ends | none => obj.ends) (match f with | some f => f.ends | none => obj.ends))))

/-- two functions called one after the other, `noexcept` if both are. Specification, not code. -/
def both (a b : Fn) : Fn := fn (a.nothrow && b.nothrow) (seq a.ends b.ends)

/-- two functions of which the second is called depending on the result of the first, `noexcept` if both are. Specification, not code. -/
def oneOrBoth (a b : Fn) : Fn := fn (a.nothrow && b.nothrow) (seq a.ends (alt quiet b.ends))

/-- the functions that `fallback` and `segragator` have in common. Specification, not code. -/
def pair (e : Env) (P F : Cls) (allocate deallocate : Fn) : Cls where
  ctor := both P.ctor F.ctor                                                    -- fallback.h:32, segragator.h:29, defaulted
  move := P.move.bind fun p => F.move.map fun f => both p f                     -- fallback.h:81, segragator.h:78, defaulted
  assign := P.assign.bind fun p => F.assign.map fun f => both p f               -- fallback.h:85, segragator.h:82, defaulted
  dtor := both F.dtor P.dtor                                                    -- implicit
  eq := fn (P.nothrowEq && F.nothrowEq) (seq P.eq.ends (alt quiet F.eq.ends))   -- fallback.h:87-91, segragator.h:84-88
  ne := fn (P.nothrowNe && F.nothrowNe) (seq P.ne.ends (alt quiet F.ne.ends))   -- fallback.h:93-97, segragator.h:90-94
  allocate := allocate
  deallocate := deallocate
  construct := P.owns.bind fun o => routed P.construct F.construct o e.make e.nothrowMake      -- fallback.h:123-151, segragator.h:117-145
  destroy := P.owns.bind fun o => routed P.destroy F.destroy o e.unmake e.unmake.nothrow       -- fallback.h:153-181, segragator.h:147-175
  maxSize := P.maxSize.bind fun p => F.maxSize.map fun f => both p f            -- fallback.h:185-191, segragator.h:179-185
  owns := P.owns.bind fun p => F.owns.map fun f => oneOrBoth p f                -- fallback.h:193-201, segragator.h:187-196

/-- `fallback` (`allocators/fallback.h`): `allocate` 100-107, `deallocate` 109-119 -/
def fallback (e : Env) (P F : Cls) : Cls := pair e P F
  (fn (P.allocate.nothrow && F.allocate.nothrow) (seq P.allocate.ends (alt quiet F.allocate.ends)))
  (fn (P.deallocate.nothrow && F.deallocate.nothrow) (seq (callIf P.owns) (alt P.deallocate.ends F.deallocate.ends)))

/-- `segragator` (`allocators/segragator.h`): `allocate` 97-104, `deallocate` 106-113 -/
def segragator (e : Env) (P F : Cls) : Cls := pair e P F
  (fn (P.allocate.nothrow && F.allocate.nothrow) (alt P.allocate.ends F.allocate.ends))
  (fn (P.deallocate.nothrow && F.deallocate.nothrow) (alt P.deallocate.ends F.deallocate.ends))

/-- `cascading::release` (`allocators/cascading.h:264-280`) -/
def cascadingRelease (A : Cls) : Fn := fn A.dtor.nothrow (loop A.alignedDelete.ends)

/-- `cascading` (`allocators/cascading.h`). A node is moved or assigned as its `Alloc` is; the class of a node is only mentioned in
exception specifications. -/
def cascading (e : Env) (A : Cls) : Cls where
  ctor := plain                                                                 -- 45-46
  move := some (fn (hasNothrow A.move && A.dtor.nothrow) quiet)                 -- 50-55
  assign := some (fn (hasNothrow A.assign) (cascadingRelease A).ends)           -- 64-74
  dtor := fn true (cascadingRelease A).ends                                     -- 57-60; the members are pointers
  eq := plain                                                                   -- 76-79
  ne := plain                                                                   -- 81-84
  allocate := fn (A.nothrowCtor && A.allocate.nothrow && noneOrNothrow A.maxSize)   -- 93-125
    (seq (alt quiet A.alignedNew.ends) (seq (callIf A.maxSize)
      (alt quiet (seq A.allocate.ends (alt quiet (seq A.alignedNew.ends A.allocate.ends))))))
  deallocate := fn (A.dtor.nothrow && hasNothrow A.owns && A.deallocate.nothrow)    -- 133-163
    (seq (loop (callIf A.owns)) (alt quiet (seq A.deallocate.ends (alt quiet A.alignedDelete.ends))))
  construct := A.construct.map fun c => fn (hasNothrow A.owns && c.nothrow)     -- 174-196
    (seq (loop (callIf A.owns)) (alt c.ends e.make.ends))
  destroy := A.destroy.map fun c => fn (hasNothrow A.owns && c.nothrow)         -- 203-225
    (seq (loop (callIf A.owns)) (alt c.ends e.unmake.ends))
  maxSize := A.maxSize.map pass                                                 -- 234-240
  owns := some (fn (hasNothrow A.owns) (loop (callIf A.owns)))                  -- 247-260

/-- `overflow` (`allocators/overflow.h`). The assignments are deleted: there is a member of reference type. -/
def overflow (e : Env) (A : Cls) : Cls where
  ctor := fn A.nothrowCtor A.ctor.ends                                          -- 35-40
  move := A.move.map fun m => fn m.nothrow m.ends                               -- 57, defaulted
  assign := none                                                                -- 82, defaulted as deleted
  dtor := fn A.dtor.nothrow (seq (alt quiet e.stream) A.dtor.ends)              -- 59-78; no specification: that of the members
  eq := fn A.nothrowEq A.eq.ends                                                -- 84-88
  ne := fn A.nothrowNe A.ne.ends                                                -- 90-94
  allocate := fn A.allocate.nothrow A.allocate.ends                             -- 104-119
  deallocate := fn A.deallocate.nothrow (alt quiet (seq (alt quiet e.stream) A.deallocate.ends))   -- 126-167
  construct := some (fn (hasNothrow A.construct || e.nothrowMake)               -- 178-189
    (match A.construct with | some c => c.ends | none => e.make.ends))
  destroy := some (fn (hasNothrow A.destroy || e.unmake.nothrow)                -- 196-207
    (match A.destroy with | some c => c.ends | none => e.unmake.ends))
  maxSize := A.maxSize.map pass                                                 -- 216-222
  owns := A.owns.map pass                                                       -- 230-236

/-- `threaded` (`allocators/threaded.h`). Moves are deleted. -/
def threaded (e : Env) (A : Cls) : Cls where
  ctor := fn A.nothrowCtor A.ctor.ends                                          -- 25-29
  move := none                                                                  -- 43
  assign := none                                                                -- 46
  dtor := pass A.dtor                                                           -- implicit
  eq := fn A.nothrowEq A.eq.ends                                                -- 48-52
  ne := fn A.nothrowNe A.ne.ends                                                -- 54-58
  allocate := fn false (seq e.lock A.allocate.ends)                             -- 61-66
  deallocate := fn false (seq e.lock A.deallocate.ends)                         -- 68-73
  construct := A.construct.map pass                                             -- 77-85
  destroy := A.destroy.map pass                                                 -- 87-95
  maxSize := A.maxSize.map pass                                                 -- 99-105
  owns := A.owns.map pass                                                       -- 107-113

/-- `reference` (`allocators/reference.h`) -/
def reference (A : Cls) : Cls where
  ctor := plain                                                                 -- 26-27
  move := some plain                                                            -- 32-33
  assign := some plain                                                          -- 42-47
  dtor := plain                                                                 -- implicit; the member is a pointer
  eq := fn A.nothrowEq (alt quiet A.eq.ends)                                    -- 49-53
  ne := fn A.nothrowNe (alt quiet A.ne.ends)                                    -- 55-59
  allocate := pass A.allocate                                                   -- 62-66
  deallocate := pass A.deallocate                                               -- 68-72
  construct := A.construct.map pass                                             -- 76-82
  destroy := A.destroy.map pass                                                 -- 84-90
  maxSize := A.maxSize.map pass                                                 -- 94-100
  owns := A.owns.map pass                                                       -- 102-108

/-- `shared::decrement` (`allocators/shared.h:199-206`) -/
def sharedDecrement (A : Cls) : Fn := fn A.dtor.nothrow (alt quiet A.alignedDelete.ends)

/-- `shared` (`allocators/shared.h`) -/
def shared (A : Cls) : Cls :=
  { reference A with
    ctor := fn A.nothrowCtor A.alignedNew.ends                                  -- 63-66
    move := some plain                                                          -- 84-88
    assign := some (fn (sharedDecrement A).nothrow (sharedDecrement A).ends)    -- 107-117
    dtor := fn true (sharedDecrement A).ends                                    -- 90-93; the member is a pointer
  }                                                                             -- 119-179: as `reference`

/-- `global` (`allocators/global.h`) -/
def global (A : Cls) : Cls :=
  { reference A with                                                            -- 53-99: as `reference`
    eq := fn false quiet                                                        -- 42-45
    ne := fn false quiet                                                        -- 47-50
  }

/-- `global::set_allocator` (`allocators/global.h:102-105`) -/
def globalSet (A : Cls) : Option Fn := A.assign.map fun m => fn true m.ends

/-- The allocator types a program can write, with classes of its own. Specification, not code. -/
inductive Ty where
  | null
  | malloc
  | arena
  | user (A : Cls)
  | freelist (A : Ty)
  | fallback (P F : Ty)
  | segragator (P F : Ty)
  | cascading (A : Ty)
  | overflow (A : Ty)
  | threaded (A : Ty)
  | shared (A : Ty)
  | reference (A : Ty)
  | global (A : Ty)

/-- The functions of a type. Specification, not code. -/
def Ty.cls (e : Env) : Ty → Cls
  | .null => Exc.null
  | .malloc => Exc.malloc
  | .arena => Exc.arena
  | .user A => A
  | .freelist A => Exc.freelist (A.cls e)
  | .fallback P F => Exc.fallback e (P.cls e) (F.cls e)
  | .segragator P F => Exc.segragator e (P.cls e) (F.cls e)
  | .cascading A => Exc.cascading e (A.cls e)
  | .overflow A => Exc.overflow e (A.cls e)
  | .threaded A => Exc.threaded e (A.cls e)
  | .shared A => Exc.shared (A.cls e)
  | .reference A => Exc.reference (A.cls e)
  | .global A => Exc.global (A.cls e)

end KTL.Exc
