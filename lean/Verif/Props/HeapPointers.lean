import Verif.Spec.HeapPointers

/- C91 for `binary_heap`. `phplay` (`Containers/HeapPointers.lean`) is `hplay` with the rules for pointers checked: it has undefined
behaviour when a pointer is computed that leads out of the array (its end is allowed), and when an element is used that does not lie in
the array as a whole. -/
namespace KTL
variable {α : Type}

/-- **C91, heaps.** Every program of heap operations, over every composed allocator and for every element type and comparator: with the
rules for pointers checked it does the same as without, so that every pointer it computes points into the array of its heap or to the
end of it, and every element it uses lies in the array. At the end the elements of each heap lie in its array, which is as large as the
capacity says. It only stops early if memory runs out, or where it pops the last element of a heap of a non-trivial type (`C56_false`). -/
theorem C91_heap_pointers_in_range (sys : Sys) (t : AllocTy) (hwf : t.WF) (b : Nat) (w : World) (hs : Storage w b t.size)
    (E : Elt α) (hE : E.Ok) (comp eq : α → α → Bool) (ops : List (BOp α)) (hops : HSane t E ops) :
    match phplay E comp eq (t.denote sys) b ops w with
    | .ok c w' => hplay E comp eq (t.denote sys) b ops w = .ok c.base w' ∧ ∀ p ∈ c.hs, p.h.size ≤ p.h.cap ∧ p.h.beg + p.h.cap * E.size = p.top
    | .oom w' => hplay E comp eq (t.denote sys) b ops w = .oom w' ∧ w'.failed = true
    | .ub => hplay E comp eq (t.denote sys) b ops w = .ub ∧ E.trivial = false ∧ popsLast [] ops = true := by
  have h1 := C52_heap_is_bag sys t hwf b w hs E hE comp eq ops hops
  have hW : ∀ m, m ≤ 2 * hweights ops → E.size * m < W64 := fun m hm => by
    have := hops.1
    have := Nat.mul_le_mul_left E.size hm
    show _ < 2 ^ 64
    omega
  have h2 : Alike (PHeaps.Rel E.size (hweights ops)) (phplay E comp eq (t.denote sys) b ops) (hplay E comp eq (t.denote sys) b ops) :=
    Alike.same _ fun s => phrun _ hW ops 0 { st := s, objs := fun _ => none, hs := [] } (fun p hp => by simp at hp) (by omega)
  have h3 := h2 w
  cases hp : hplay E comp eq (t.denote sys) b ops w with
  | ok d w' =>
    rw [hp] at h3
    obtain ⟨a, h4, rfl, h5⟩ := h3
    rw [h4]
    exact ⟨rfl, fun p hp => ⟨(h5 p hp).le, (h5 p hp).top.symm⟩⟩
  | oom w' =>
    rw [hp] at h1 h3
    rw [h3]
    exact ⟨rfl, h1⟩
  | ub =>
    rw [hp] at h1 h3
    rw [h3]
    exact ⟨rfl, h1⟩

/-- Without the capacity the check fails: a heap whose capacity says more than its array has runs out of the array when it is filled. The
check is not idle. -/
theorem C91_heap_check_rejects (E : Elt α) (hE : E.Ok) (comp : α → α → Bool) (A : Allocator) (s : A.St) (o : Objs α) (p : PHeap) (v : α)
    (hsize : p.h.size < p.h.cap) (htop : p.top = p.h.beg + p.h.size * E.size) (w : World) : p.insert E comp A s o (.val v) w = .ub := by
  unfold PHeap.insert
  have hz := hE.pos
  rw [if_neg (by omega)]
  show (M.itemAt p.h.beg p.top E.size p.h.size >>= _) w = .ub
  unfold M.itemAt
  rw [htop, elem_at (Nat.le_refl _), pure_bind_unit, if_neg (by omega)]
  rfl

/-! ### The hypotheses are met -/

example : HSane (.freelist 0 64 .mallocator) demoElt [.newList [3, 1, 2], .insert 0 7, .pop 0, .reserve 0 9, .copy 0, .find 1 2, .clear 0] :=
  ⟨by decide, fun _ => by decide⟩

/-- a program that grows a heap, sifts in both directions and searches -/
example : (phplay demoElt demoLess (fun a b => a == b) (mallocator (demoSys .direct)) 4096
    [.newList [5, 4, 3], .insert 0 1, .insert 0 2, .pop 0, .find 0 9] (demoWorld 0)).test
    (fun c _ => c.seen.length == 4 && c.hs.length == 1) = true := by decide +kernel

end KTL
