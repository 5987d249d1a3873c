import Verif.Util.Bits
import Verif.Alloc.Fallback

/- The compile-time type builders (`allocators/fallback_fwd.h`, `allocators/segragator_fwd.h`,
`utility/builder.h`). Template instantiation is modelled by recursive functions on lists of types;
`none` means that the instantiation does not compile. The recursion depth is bounded by `fuel`. -/
namespace KTL

/-- `utility/builder.h:42-58` `size_invert<R, N, M>`: (`first`, `second`) -/
def sizeInvert (R : Bool) (N M : Nat) : Nat × Nat := if R then (subW M N, N) else (N, subW M N)

/-- `std::tuple_element_t` for a list of indices. C++ machine, not library code. -/
def pick {α} (ts : List α) : List Nat → Option (List α)
  | [] => some []
  | i :: is =>
    match ts[i]?, pick ts is with
    | some a, some as => some (a :: as)
    | _, _ => none

/-- `utility/builder.h:27-39` `tuple_split_indices<O, index_sequence<0..n-1>, index_sequence<0..m-1>, tuple<ts...>>` -/
def tupleSplit {α} (O n m : Nat) (ts : List α) : Option (List α × List α) :=
  match pick ts (List.range n), pick ts ((List.range m).map (fun M => M + O + n)) with
  | some a, some b => some (a, b)
  | _, _ => none

/-- nested `fallback` types. `allocators/fallback_fwd.h:28-56`. -/
inductive FTree (α : Type u) where
  | leaf (a : α)
  | node (l r : FTree α)
  deriving DecidableEq, Repr

/-- `allocators/fallback_fwd.h:28-56` `detail::fallback_builder<R, tuple<ts...>>::type` -/
def fallbackBuild {α} (R : Bool) : Nat → List α → Option (FTree α)
  | 0, _ => none
  | _ + 1, [a] => some (.leaf a)
  | fuel + 1, ts =>
    let middle := sizeInvert R (pow2 ts.length / 2) ts.length
    match tupleSplit 0 middle.1 middle.2 ts with
    | none => none
    | some (ts1, ts2) =>
      match fallbackBuild R fuel ts1, fallbackBuild R fuel ts2 with
      | some l, some r => some (.node l r)
      | _, _ => none

/-- A template argument of `segragator_builder`: an allocator or a `threshold<N>`.
`allocators/segragator_fwd.h:25-58`. -/
inductive Item (α : Type u) where
  | alloc (a : α)
  | thr (t : Nat)
  deriving DecidableEq, Repr

/-- nested `segragator` types. `allocators/segragator_fwd.h:25-58`. -/
inductive STree (α : Type u) where
  | leaf (a : α)
  | node (t : Nat) (l r : STree α)
  deriving DecidableEq, Repr

/-- `allocators/segragator_fwd.h:25-58` `detail::segragator_builder<R, tuple<ts...>>::type` -/
def segragatorBuild {α} (R : Bool) : Nat → List (Item α) → Option (STree α)
  | 0, _ => none
  | _ + 1, [.alloc a] => some (.leaf a)
  | fuel + 1, ts =>
    -- static_assert(sizeof...(Ts) % 2 != 0)
    if ts.length % 2 = 0 then none
    else
      let middle := sizeInvert R (subW (pow2 ts.length) 1 / 2) (subW ts.length 1)
      match tupleSplit 1 middle.1 middle.2 ts, ts[middle.1]? with
      | some (ts1, ts2), some (.thr t) =>
        match segragatorBuild R fuel ts1, segragatorBuild R fuel ts2 with
        | some l, some r => some (.node t l r)
        | _, _ => none
      | _, _ => none

/-- the allocator class a tree of `fallback`s denotes. Specification, not code. -/
def FTree.denote : FTree Allocator → Allocator
  | .leaf A => A
  | .node l r => fallback l.denote r.denote

/-- the allocator class a tree of `segragator`s denotes. Specification, not code. -/
def STree.denote : STree Allocator → Allocator
  | .leaf A => A
  | .node t l r => segragator t l.denote r.denote

end KTL
