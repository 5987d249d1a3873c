import Verif.Exc.Inv
import Verif.Exc.Containers

/-! # C77: a function declared `noexcept` lets no exception out

`std::terminate` is called when an exception leaves a function declared `noexcept`. The allocators compute their exception specifications
from those of the allocators they are made of; the containers declare most functions `noexcept` outright. -/

namespace KTL

open Exc

/-! ## What the property says -/

/-- All functions of a class. Specification, not code. -/
def Exc.Cls.members (A : Cls) : List Fn :=
  [A.ctor, A.dtor, A.eq, A.ne, A.allocate, A.deallocate] ++ A.move.toList ++ A.assign.toList ++ A.construct.toList ++ A.destroy.toList
    ++ A.maxSize.toList ++ A.owns.toList

/-- A function written outside the library: it does not end the program, and throws nothing if it is declared `noexcept`.
Specification, not code. -/
def Exc.Fn.Honest (f : Fn) : Prop := ¬ f.ends .terminates ∧ (f.nothrow = true → ¬ f.ends .throws)

/-- What a program may use with the library: honest functions, and destructors do not throw. Specification, not code. -/
structure Exc.Env.Honest (e : Env) : Prop where
  make : e.make.Honest
  unmake : e.unmake.Honest
  unmakeQuiet : ¬ e.unmake.ends .throws
  stream : ¬ e.stream .terminates
  lock : ¬ e.lock .terminates

/-- What is asked of an allocator type: the functions of the classes of the program are honest, and
* `owns`, `destroy` and the destructors of these classes never throw, `!=` not if `==` is `noexcept`, `construct` not if the constructor of
  the object is `noexcept`, and `construct` is only declared `noexcept` in that case;
* `freelist` is used over an allocator whose `deallocate` never throws;
* the stream of `overflow` never throws;
* an allocator of `global` is assigned without exceptions.

Specification, not code. -/
def Exc.Ty.Careful (e : Env) : Ty → Prop
  | .null | .malloc | .arena => True
  | .user A => (∀ f ∈ A.members, f.Honest) ∧ ¬ A.dtor.ends .throws ∧ (A.eq.nothrow = true → ¬ A.ne.ends .throws)
      ∧ (∀ f, A.owns = some f → ¬ f.ends .throws) ∧ (∀ f, A.destroy = some f → ¬ f.ends .throws)
      ∧ (∀ f, A.construct = some f → (f.nothrow = true → e.nothrowMake = true) ∧ (e.nothrowMake = true → ¬ f.ends .throws))
  | .freelist A => A.Careful e ∧ ¬ (A.cls e).deallocate.ends .throws
  | .fallback P F | .segragator P F => P.Careful e ∧ F.Careful e
  | .overflow A => A.Careful e ∧ ¬ e.stream .throws
  | .global A => A.Careful e ∧ ∀ f, (A.cls e).assign = some f → ¬ f.ends .throws
  | .cascading A | .threaded A | .shared A | .reference A => A.Careful e

/-! ## The allocators -/

private theorem kept_of {f : Fn} (h : f.Honest) : Kept f := ⟨h.1, h.2⟩

theorem careful_inv {e : Env} (he : e.Honest) : ∀ t : Ty, t.Careful e → Inv e (t.cls e)
  | .null, _ => Inv.leaf.1
  | .malloc, _ => Inv.leaf.2.1
  | .arena, _ => Inv.leaf.2.2
  | .user A, ⟨h, h1, h2, h3, h4, h5⟩ => by
    have mem : ∀ f ∈ A.members, Kept f := fun f hf => kept_of (h f hf)
    exact {
      ctor := mem A.ctor (by simp [Cls.members])
      dtor := mem A.dtor (by simp [Cls.members])
      eq := mem A.eq (by simp [Cls.members])
      ne := mem A.ne (by simp [Cls.members])
      allocate := mem A.allocate (by simp [Cls.members])
      deallocate := mem A.deallocate (by simp [Cls.members])
      dtorQ := h1
      neQ := h2
      move := fun f hf => mem _ (by have : A.move = some f := hf; simp [Cls.members, this])
      assign := fun f hf => mem _ (by have : A.assign = some f := hf; simp [Cls.members, this])
      construct := fun f hf => ⟨mem _ (by have : A.construct = some f := hf; simp [Cls.members, this]), h5 f hf⟩
      destroy := fun f hf => ⟨mem _ (by have : A.destroy = some f := hf; simp [Cls.members, this]), h4 f hf⟩
      maxSize := fun f hf => mem _ (by have : A.maxSize = some f := hf; simp [Cls.members, this])
      owns := fun f hf => ⟨mem _ (by have : A.owns = some f := hf; simp [Cls.members, this]), h3 f hf⟩ }
  | .freelist A, h => (careful_inv he A h.1).freelist h.2
  | .fallback P F, h => Inv.fallback (kept_of he.make) (kept_of he.unmake) he.unmakeQuiet (careful_inv he P h.1) (careful_inv he F h.2)
  | .segragator P F, h => Inv.segragator (kept_of he.make) (kept_of he.unmake) he.unmakeQuiet (careful_inv he P h.1) (careful_inv he F h.2)
  | .cascading A, h => Inv.cascading (kept_of he.make) (kept_of he.unmake) he.unmakeQuiet (careful_inv he A h)
  | .overflow A, h => Inv.overflow (kept_of he.make) (kept_of he.unmake) he.unmakeQuiet he.stream h.2 (careful_inv he A h.1)
  | .threaded A, h => Inv.threaded he.lock (careful_inv he A h)
  | .shared A, h => (careful_inv he A h).shared
  | .reference A, h => (careful_inv he A h).reference
  | .global A, h => (careful_inv he A h.1).global

private theorem members_kept {e : Env} {A : Cls} (h : Inv e A) : ∀ f ∈ A.members, Kept f := by
  intro f hf
  simp only [Cls.members, List.mem_append, List.mem_cons, List.not_mem_nil, or_false, Option.mem_toList] at hf
  rcases hf with ((((((rfl | rfl | rfl | rfl | rfl | rfl) | h') | h') | h') | h') | h') | h'
  · exact h.ctor
  · exact h.dtor
  · exact h.eq
  · exact h.ne
  · exact h.allocate
  · exact h.deallocate
  · exact h.move f h'
  · exact h.assign f h'
  · exact (h.construct f h').1
  · exact (h.destroy f h').1
  · exact h.maxSize f h'
  · exact (h.owns f h').1

/-- C77, allocators: no function of an allocator composed with care ends the program, and one that is declared `noexcept` throws nothing.
Partial: for allocators composed without care it is false, see below. -/
theorem C77_allocators_partial {e : Env} (he : e.Honest) (t : Ty) (ht : t.Careful e) :
    ∀ f ∈ (t.cls e).members, ¬ f.ends .terminates ∧ (f.nothrow = true → ¬ f.ends .throws) :=
  fun f hf => ⟨(members_kept (careful_inv he t ht) f hf).term, (members_kept (careful_inv he t ht) f hf).honest⟩

/-- C77, `global::set_allocator`: as the allocators. -/
theorem C77_global_set_partial {e : Env} (he : e.Honest) (t : Ty) (ht : (Ty.global t).Careful e) :
    ∀ f, globalSet (t.cls e) = some f → ¬ f.ends .terminates := by
  intro f hf
  obtain ⟨g, hg, rfl⟩ := Option.map_eq_some_iff.1 hf
  exact (Kept.fn ((careful_inv he t ht.1).assign g hg).term fun _ => ht.2 g hg).term

/-- A function that is not `noexcept` and can throw. Specification, not code. -/
def Exc.risky : Fn := fn false fun o => o = .returns ∨ o = .throws

/-- An environment in which everything that may throw does: the constructor of `T`, the stream and the lock. Specification, not code. -/
def Exc.riskyEnv : Env where
  make := risky
  unmake := plain
  stream := risky.ends
  lock := risky.ends

theorem Exc.riskyEnv_honest : riskyEnv.Honest where
  make := by simp [Fn.Honest, riskyEnv, risky]
  unmake := by simp [Fn.Honest, riskyEnv]
  unmakeQuiet := by simp [riskyEnv]
  stream := by simp [riskyEnv, risky]
  lock := by simp [riskyEnv, risky]

/-- an allocator of the program that throws when it cannot allocate, like `std::allocator` -/
example :
    let std : Cls := { malloc with allocate := risky }
    let t : Ty := .fallback (.freelist (.arena)) (.threaded (.shared (.cascading (.segragator .arena (.user std)))))
    t.Careful riskyEnv ∧ (t.cls riskyEnv).allocate.ends .throws ∧ (t.cls riskyEnv).deallocate.ends .throws := by
  have hr : risky.Honest := by simp [Fn.Honest, risky]
  have hp : plain.Honest := by simp [Fn.Honest]
  refine ⟨⟨⟨trivial, by simp [Ty.cls, arena, null]⟩, trivial, ?_, by simp [malloc, null], by simp [malloc, null], by simp [malloc, null],
    by simp [malloc, null], by simp [malloc, null]⟩, ?_, ?_⟩
  · intro f hf
    simp only [Cls.members, malloc, null, Option.toList, List.append_nil, List.mem_append, List.mem_cons, List.not_mem_nil, or_false] at hf
    rcases hf with ((rfl | rfl | rfl | rfl | rfl | rfl) | rfl) | rfl <;> first | exact hp | exact hr
  · simp [Ty.cls, Exc.fallback, pair, Exc.freelist, Exc.threaded, riskyEnv, risky, arena, null]
  · simp [Ty.cls, Exc.fallback, pair, Exc.freelist, Exc.threaded, riskyEnv, risky, arena, null, callIf, pass]

/-! ## Where the allocators break it -/

/-- C77, false for `freelist` over an allocator that locks: the destructor returns the blocks of the list to the allocator, which locks; the
destructor is implicitly `noexcept`, but locking can throw. The move assignment does the same. -/
theorem C77_freelist_false (e : Env) (h : e.lock .throws) :
    ((Ty.freelist (.threaded .malloc)).cls e).dtor.ends .terminates
    ∧ ∃ f, ((Ty.freelist (.reference (.threaded .malloc))).cls e).assign = some f ∧ f.ends .terminates := by
  refine ⟨?_, _, rfl, ?_⟩
  · simp [Ty.cls, Exc.freelist, Exc.freelistRelease, Exc.threaded, Exc.malloc, Exc.null, pass, h]
  · simp [Ty.cls, Exc.freelist, Exc.freelistRelease, Exc.threaded, Exc.reference, Exc.malloc, Exc.null, pass, h]

/-- C77, false for `freelist` over any allocator that may throw when memory is given back and has a `noexcept` destructor. -/
theorem C77_freelist_any_false (A : Cls) (hd : A.dtor.nothrow = true) (hn : A.deallocate.nothrow = false) (h : A.deallocate.ends .throws) :
    (Exc.freelist A).dtor.ends .terminates := by
  simp [Exc.freelist, Exc.freelistRelease, hd, hn, h]

/-- C77, false for `overflow`: the reports are written to a stream, which can throw (`std::ostream::exceptions`), in a `deallocate` that is
`noexcept` if that of the allocator is, and in the destructor. -/
theorem C77_overflow_false (e : Env) (h : e.stream .throws) :
    ((Ty.overflow .malloc).cls e).dtor.ends .terminates ∧ ((Ty.overflow .malloc).cls e).deallocate.ends .terminates := by
  constructor <;> simp [Ty.cls, Exc.overflow, Exc.malloc, Exc.null, h]

/-- C77, false for an allocator of the program whose `owns` can throw and says so: `fallback::deallocate` calls it, but its exception
specification only mentions the `deallocate` of the two parts; likewise `construct` and `destroy` of `fallback` and `segragator`. -/
theorem C77_owns_false (e : Env) :
    let A : Cls := { arena with owns := some risky, construct := some plain, destroy := some plain }
    (∀ f ∈ A.members, f.Honest)
    ∧ ((Ty.fallback (.user A) .malloc).cls e).deallocate.ends .terminates
    ∧ (e.nothrowMake = true → ∀ t ∈ [Ty.fallback (.user A) .malloc, Ty.segragator (.user A) .malloc],
        ∃ f, (t.cls e).construct = some f ∧ f.ends .terminates)
    ∧ (e.unmake.nothrow = true → ∀ t ∈ [Ty.fallback (.user A) .malloc, Ty.segragator (.user A) .malloc],
        ∃ f, (t.cls e).destroy = some f ∧ f.ends .terminates) := by
  refine ⟨?_, ?_, ?_, ?_⟩
  · intro f hf
    simp only [Cls.members, arena, null, Option.toList, List.append_nil, List.mem_append, List.mem_cons, List.not_mem_nil, or_false] at hf
    have hr : risky.Honest := by simp [Fn.Honest, risky]
    have hp : plain.Honest := by simp [Fn.Honest]
    rcases hf with ((((((rfl | rfl | rfl | rfl | rfl | rfl) | rfl) | rfl) | rfl) | rfl) | rfl) | rfl <;> first | exact hp | exact hr
  · simp [Ty.cls, Exc.fallback, pair, Exc.malloc, arena, null, callIf, risky]
  · intro hm t ht
    rcases List.mem_cons.1 ht with rfl | ht
    · exact ⟨_, rfl, by simp [arena, null, noneOrNothrow, Ty.cls, Exc.malloc, risky, hm]⟩
    · obtain rfl := List.mem_singleton.1 ht
      exact ⟨_, rfl, by simp [arena, null, noneOrNothrow, Ty.cls, Exc.malloc, risky, hm]⟩
  · intro hm t ht
    rcases List.mem_cons.1 ht with rfl | ht
    · exact ⟨_, rfl, by simp [arena, null, noneOrNothrow, Ty.cls, Exc.malloc, risky, hm]⟩
    · obtain rfl := List.mem_singleton.1 ht
      exact ⟨_, rfl, by simp [arena, null, noneOrNothrow, Ty.cls, Exc.malloc, risky, hm]⟩

/-- C77, false for an allocator of the program with a `noexcept` `==` and a `!=` that can throw: `has_nothrow_not_equal_v` looks at `==`. The
`!=` of every allocator that passes it on ends the program. -/
theorem C77_not_equal_false (e : Env) (A : Cls) (he : A.eq.nothrow = true) (h : A.ne.ends .throws) :
    ∀ t ∈ [Ty.freelist (.user A), Ty.overflow (.user A), Ty.threaded (.user A), Ty.reference (.user A), Ty.shared (.user A),
        Ty.fallback (.user A) .malloc, Ty.segragator (.user A) .malloc], (t.cls e).ne.ends .terminates := by
  intro t ht
  simp only [List.mem_cons, List.not_mem_nil, or_false] at ht
  rcases ht with rfl | rfl | rfl | rfl | rfl | rfl | rfl
  all_goals simp [Ty.cls, Exc.freelist, Exc.overflow, Exc.threaded, Exc.reference, Exc.shared, Exc.fallback, Exc.segragator, pair, Exc.malloc,
    Exc.null, Cls.nothrowNe, he, h]

/-- C77, false for `overflow::construct` of an allocator that has a `construct` that can throw although the constructor of the object cannot:
the exception specification is an "or". -/
theorem C77_overflow_construct_false (e : Env) (hm : e.nothrowMake = true) (A : Cls) (c : Fn) (hc : A.construct = some c) (h : c.ends .throws) :
    ∃ f, ((Ty.overflow (.user A)).cls e).construct = some f ∧ f.ends .terminates := by
  refine ⟨_, rfl, ?_⟩
  simp [Ty.cls, hc, hm, h]

/-- C77, false for the constructor of `type_allocator`: its exception specification is that of the constructor of the elements from the same
arguments, not that of the allocator. -/
theorem C77_type_allocator_false (A : Cls) (h : A.ctor.ends .throws) : (typedCtor true A).ends .terminates := by
  simp [typedCtor, h]

/-- C77, false for `global::set_allocator` with an allocator whose move assignment can throw. -/
theorem C77_global_set_false (A : Cls) (m : Fn) (hm : A.assign = some m) (h : m.ends .throws) :
    ∃ f, globalSet A = some f ∧ f.ends .terminates := by
  refine ⟨_, by rw [globalSet, hm]; rfl, by simp [h]⟩

end KTL
