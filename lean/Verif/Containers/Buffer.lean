import Verif.Containers.Pool

/- `containers/trivial_buffer.h`, function by function. A buffer is `Size * sizeof(T)` bytes at an address; elements are byte strings of
length `sz = sizeof(T)`.

`begin`, `end`, `rbegin`, `rend` are in `Containers/Iterate.lean` (they compile only for `T = uint8_t`: `m_Data` is not a `T*`).
Not modelled: `data` (as `begin`), `at` and the const
`operator[]` (they do not compile when used: the cast drops const), the assertions (off by default). -/
namespace KTL

/-- A buffer (or plain array): address and number of elements. `containers/trivial_buffer.h:152`. -/
structure Buf where
  addr : Nat
  n : Nat
  deriving DecidableEq, Repr

namespace Buf

/-- address of the element `operator[]` refers to, `containers/trivial_buffer.h:84, 92`; remainder by zero is undefined -/
def elem (sz : Nat) (b : Buf) (i : Nat) : M Nat := if b.n = 0 then M.ub else pure (b.addr + i % b.n * sz)

/-- `b[i]` used as a value. `containers/trivial_buffer.h:84, 92`. -/
def get (sz : Nat) (b : Buf) (i : Nat) : M (List UInt8) := do
  let p ← b.elem sz i
  M.readBytes p sz

/-- `b[i] = v`. `containers/trivial_buffer.h:84`. -/
def set (sz : Nat) (b : Buf) (i : Nat) (v : List UInt8) : M Unit := do
  let p ← b.elem sz i
  M.writeBytes p v

/-- writing the elements of a list from `dst` on: the loop of the constructor from an initializer list `trivial_buffer.h:37-47` -/
def putAll (sz dst : Nat) : List (List UInt8) → M Unit
  | [] => pure ()
  | v :: vs => do
    M.writeBytes dst v
    putAll sz (dst + sz) vs

/-- constructor from a value `trivial_buffer.h:32-35` (`uninitialized_fill_n`) -/
def fill (sz : Nat) (b : Buf) (v : List UInt8) : M Unit := putAll sz b.addr (List.replicate b.n v)

/-- constructor from an initializer list `trivial_buffer.h:37-47` -/
def ofList (sz : Nat) (b : Buf) (vs : List (List UInt8)) : M Unit := putAll sz b.addr vs

/-- constructor from a range and `assign`, `trivial_buffer.h:49-54, 144-149` -/
def assign (sz : Nat) (b : Buf) (first : Nat) : M Unit := M.memcpy b.addr first (b.n * sz)

/-- copy and move constructors and assignments `trivial_buffer.h:56-76` -/
def copy (sz : Nat) (b other : Buf) : M Unit := M.memcpy b.addr other.addr (b.n * sz)

end Buf

/-- What a program with buffers and arrays can do. The default constructor does nothing. Specification, not code. -/
inductive FOp where
  | fill (i : Nat) (v : List UInt8)
  | ofList (i : Nat) (vs : List (List UInt8))
  /-- the range of elements of array `j` that begins with element `l` -/
  | assign (i j l : Nat)
  | copy (i j : Nat)
  | set (i k : Nat) (v : List UInt8)
  | get (i k : Nat)

/-- One operation; the result is what the program has seen. Calls that violate a precondition (no such buffer, an initializer list
that is too long, a range that is too short or overlaps the buffer, buffers of different type) are skipped; so is assignment of a buffer to
itself, see `C50_self_assignment_false`. Specification, not code. -/
def FOp.run (sz : Nat) (bs : List Buf) : FOp → M (List (List UInt8))
  | .fill i v =>
    match bs[i]? with
    | some b => do
      b.fill sz v
      pure []
    | none => pure []
  | .ofList i vs =>
    match bs[i]? with
    | some b => if vs.length ≤ b.n then do
        b.ofList sz vs
        pure []
      else pure []
    | none => pure []
  | .assign i j l =>
    match bs[i]?, bs[j]? with
    | some b, some c => if i ≠ j ∧ l + b.n ≤ c.n then do
        b.assign sz (c.addr + l * sz)
        pure []
      else pure []
    | _, _ => pure []
  | .copy i j =>
    match bs[i]?, bs[j]? with
    | some b, some c => if i ≠ j ∧ b.n = c.n then do
        b.copy sz c
        pure []
      else pure []
    | _, _ => pure []
  | .set i k v =>
    match bs[i]? with
    | some b => do
      b.set sz k v
      pure []
    | none => pure []
  | .get i k =>
    match bs[i]? with
    | some b => do
      let v ← b.get sz k
      pure [v]
    | none => pure []

/-- A program. Specification, not code. -/
def frun (sz : Nat) (bs : List Buf) : List FOp → M (List (List UInt8))
  | [] => pure []
  | o :: os => do
    let a ← o.run sz bs
    let as ← frun sz bs os
    pure (a ++ as)

end KTL
