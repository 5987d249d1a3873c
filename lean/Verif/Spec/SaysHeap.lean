import Verif.Spec.Firm
import Verif.Containers.BinaryHeap

/- What heaps print. Proof machinery for C83. -/
namespace KTL

variable {α : Type} {Q : Msg → Prop} {E : Elt α}

namespace Says

theorem eltAt (o : Objs α) (p : Nat) : Says Q (E.at o p) := by
  unfold Elt.at
  refine bind (readBytes _ _) fun bs => ?_
  split
  · exact ite (pure _) ub
  · exact ub

theorem eltRead (o : Objs α) (p : Nat) : Says Q (E.read o p) := bind (eltAt _ _) fun _ => pure _

theorem eltConstruct (o : Objs α) (p : Nat) (v : α) : Says Q (E.construct o p v) := ite ub (bind (writeBytes _ _) fun _ => pure _)

theorem eltAssign (o : Objs α) (p : Nat) (v : α) : Says Q (E.assign o p v) := bind (eltAt _ _) fun _ => bind (writeBytes _ _) fun _ => pure _

theorem eltMoveOut (o : Objs α) (p : Nat) : Says Q (E.moveOut o p) := bind (eltRead _ _) fun _ => bind (eltAssign _ _ _) fun _ => pure _

theorem eltDestroy (o : Objs α) (p : Nat) : Says Q (E.destroy o p) := bind (eltAt _ _) fun _ => ite (pure _) ub

theorem hFetch (o : Objs α) (x : HArg α) : Says Q (x.fetch E o) := by
  cases x
  · exact pure _
  · exact eltRead _ _

end Says

namespace BHeap
open Says

theorem says_destroyAll (beg i n : Nat) (o : Objs α) : Says Q (destroyAll E beg i n o) := by
  induction n generalizing i o with
  | zero => exact Says.pure _
  | succ n ih => exact Says.bind (eltDestroy _ _) fun _ => ih _ _

theorem says_copyAll (dst src i n : Nat) (o : Objs α) : Says Q (copyAll E dst src i n o) := by
  induction n generalizing i o with
  | zero => exact Says.pure _
  | succ n ih => exact Says.bind (eltRead _ _) fun _ => Says.bind (eltConstruct _ _ _) fun _ => ih _ _

theorem says_moveAll (dst src i n : Nat) (o : Objs α) : Says Q (moveAll E dst src i n o) := by
  induction n generalizing i o with
  | zero => exact Says.pure _
  | succ n ih => exact Says.bind (eltMoveOut _ _) fun _ => Says.bind (eltConstruct _ _ _) fun _ => ih _ _

theorem says_upLoop (comp : α → α → Bool) (beg : Nat) (v : α) (i : Nat) (o : Objs α) : Says Q (upLoop E comp beg v i o) := by
  induction i using Nat.strongRecOn generalizing o with
  | ind i ih =>
    unfold upLoop
    split
    · rename_i h
      exact Says.bind (eltRead _ _) fun _ => Says.ite (Says.bind (eltMoveOut _ _) fun _ => Says.bind (eltAssign _ _ _) fun _ =>
        ih ((i - 1) / 2) (by omega) _) (Says.pure _)
    · exact Says.pure _

theorem says_percolateUp (comp : α → α → Bool) (beg i : Nat) (o : Objs α) : Says Q (percolateUp E comp beg i o) :=
  Says.bind (eltRead _ _) fun _ => Says.bind (says_upLoop _ _ _ _ _) fun _ => Says.bind (eltAssign _ _ _) fun _ => Says.pure _

theorem says_better (comp : α → α → Bool) (beg n : Nat) (o : Objs α) (c d : Nat) : Says Q (better E comp beg n o c d) :=
  Says.ite (Says.bind (eltRead _ _) fun _ => Says.bind (eltRead _ _) fun _ => Says.pure _) (Says.pure _)

theorem says_downLoop (comp : α → α → Bool) (beg n fuel i : Nat) (o : Objs α) : Says Q (downLoop E comp beg n fuel i o) := by
  induction fuel generalizing i o with
  | zero => exact Says.ub
  | succ fuel ih =>
    exact Says.ite (Says.bind (says_better _ _ _ _ _ _) fun _ => Says.bind (says_better _ _ _ _ _ _) fun _ => Says.ite (Says.pure _)
      (Says.bind (eltMoveOut _ _) fun _ => Says.bind (eltMoveOut _ _) fun _ => Says.bind (eltAssign _ _ _) fun _ => Says.bind (eltAssign _ _ _) fun _ =>
        ih _ _)) (Says.pure _)

theorem says_percolateDown (comp : α → α → Bool) (beg n i : Nat) (o : Objs α) : Says Q (percolateDown E comp beg n i o) :=
  Says.bind (eltRead _ _) fun _ => Says.bind (says_downLoop _ _ _ _ _ _) fun _ => eltAssign _ _ _

theorem says_moveElem (o : Objs α) (d s : Nat) : Says Q (moveElem E o d s) :=
  Says.ite (Says.bind (eltRead _ _) fun _ => eltAssign _ _ _) (Says.bind (eltMoveOut _ _) fun _ => eltAssign _ _ _)

theorem says_pop (comp : α → α → Bool) (o : Objs α) (h : BHeap) : Says Q (h.pop E comp o) :=
  Says.bind (eltRead _ _) fun _ => Says.bind (says_moveElem _ _ _) fun _ => Says.bind (eltDestroy _ _) fun _ =>
    Says.bind (says_percolateDown _ _ _ _ _) fun _ => Says.pure _

theorem says_find (eq : α → Bool) (o : Objs α) (beg i n : Nat) : Says Q (find E eq o beg i n) := by
  induction n generalizing i with
  | zero => exact Says.pure _
  | succ n ih => exact Says.bind (eltRead _ _) fun _ => Says.ite (Says.pure _) (ih _)

variable {A : Allocator} (hA : ∀ s n, Says Q (A.alloc s n)) (hD : ∀ s p n, Says Q (A.dealloc s p n))

include hD in
theorem says_dealloc (s : A.St) (o : Objs α) (p n : Nat) : Says Q (E.dealloc A s o p n) := Says.ite Says.ub (Says.bind (hD _ _ _) fun _ => Says.pure _)

include hD in
theorem says_destroy (s : A.St) (o : Objs α) (h : BHeap) : Says Q (h.destroy E A s o) :=
  Says.ite (Says.bind (says_destroyAll _ _ _ _) fun _ => says_dealloc hD _ _ _ _) (Says.pure _)

include hA in
theorem says_copy (s : A.St) (o : Objs α) (h : BHeap) : Says Q (h.copy E A s o) :=
  Says.bind (Says.grab hA _ _ _) fun _ => Says.bind (says_copyAll _ _ _ _ _) fun _ => Says.pure _

include hA hD

theorem says_setSize (s : A.St) (o : Objs α) (h : BHeap) (n : Nat) : Says Q (h.setSize E A s o n) :=
  Says.bind (Says.grab hA _ _ _) fun _ => Says.ite (Says.bind (says_moveAll _ _ _ _ _) fun _ => Says.bind (says_destroyAll _ _ _ _) fun _ =>
    Says.bind (says_dealloc hD _ _ _ _) fun _ => Says.pure _) (Says.bind (Says.pure _) fun _ => Says.pure _)

theorem says_insert (comp : α → α → Bool) (s : A.St) (o : Objs α) (h : BHeap) (x : HArg α) : Says Q (h.insert E comp A s o x) :=
  Says.iteBind (says_setSize hA hD _ _ _ _) (Says.pure _) fun _ => Says.bind (hFetch _ _) fun _ => Says.bind (eltConstruct _ _ _) fun _ =>
    Says.bind (says_percolateUp _ _ _ _) fun _ => Says.pure _

theorem says_insertAll (comp : α → α → Bool) (s : A.St) (o : Objs α) (h : BHeap) (vs : List α) : Says Q (h.insertAll E comp A s o vs) := by
  induction vs generalizing s o h with
  | nil => exact Says.pure _
  | cons v vs ih => exact Says.bind (says_insert hA hD _ _ _ _ _) fun _ => ih _ _ _

end BHeap

namespace BHeaps

variable {A : Allocator} (hA : ∀ s n, Says Q (A.alloc s n)) (hD : ∀ s p n, Says Q (A.dealloc s p n))
include hD

theorem says_destroyAll (s : A.St) (o : Objs α) (hs : List BHeap) : Says Q (BHeaps.destroyAll E s o hs) := by
  induction hs generalizing s o with
  | nil => exact Says.pure _
  | cons h hs ih => exact Says.bind (BHeap.says_destroy hD _ _ _) fun _ => ih _ _

include hA

theorem says_step (comp eq : α → α → Bool) (c : BHeaps A α) (op : BOp α) : Says Q (c.step E comp eq op) := by
  have hcap : ∀ s n, Says Q (BHeap.ofCap E A s n) := fun s n => Says.bind (Says.grab hA _ _ _) fun _ => Says.pure _
  cases op with
  | new => exact Says.pure _
  | newCap n => exact Says.bind (hcap _ _) fun _ => Says.pure _
  | newList vs => exact Says.bind (Says.bind (hcap _ _) fun _ => BHeap.says_insertAll hA hD _ _ _ _ _) fun _ => Says.pure _
  | copy j =>
    simp only [BHeaps.step]
    split
    · exact Says.bind (BHeap.says_copy hA _ _ _) fun _ => Says.pure _
    · exact Says.pure _
  | move j => simp only [BHeaps.step]; split <;> exact Says.pure _
  | copyAssign i j =>
    simp only [BHeaps.step, BHeaps.copyAssign]
    refine Says.ite (Says.pure _) ?_
    split
    · exact Says.bind (BHeap.says_destroy hD _ _ _) fun _ => Says.bind (Says.grab hA _ _ _) fun _ => Says.bind (BHeap.says_copyAll _ _ _ _ _) fun _ => Says.pure _
    · exact Says.pure _
  | moveAssign i j =>
    simp only [BHeaps.step, BHeaps.moveAssign]
    split
    · exact Says.bind (BHeap.says_destroy hD _ _ _) fun _ => Says.pure _
    · exact Says.pure _
  | destroy i =>
    simp only [BHeaps.step]
    split
    · exact Says.bind (BHeap.says_destroy hD _ _ _) fun _ => Says.pure _
    · exact Says.pure _
  | reserve i n =>
    simp only [BHeaps.step]
    split
    · exact Says.bind (Says.ite (BHeap.says_setSize hA hD _ _ _ _) (Says.pure _)) fun _ => Says.pure _
    · exact Says.pure _
  | insert i v =>
    simp only [BHeaps.step]
    split
    · exact Says.bind (BHeap.says_insert hA hD _ _ _ _ _) fun _ => Says.bind (Says.eltRead _ _) fun _ => Says.pure _
    · exact Says.pure _
  | insertFrom i j k =>
    simp only [BHeaps.step]
    split
    · exact Says.ite (Says.bind (BHeap.says_insert hA hD _ _ _ _ _) fun _ => Says.pure _) (Says.pure _)
    · exact Says.pure _
  | pop i =>
    simp only [BHeaps.step]
    split
    · exact Says.ite (Says.bind (BHeap.says_pop _ _ _) fun _ => Says.pure _) (Says.pure _)
    · exact Says.pure _
  | peek i =>
    simp only [BHeaps.step]
    split
    · exact Says.ite (Says.bind (Says.eltRead _ _) fun _ => Says.pure _) (Says.pure _)
    · exact Says.pure _
  | find i v =>
    simp only [BHeaps.step]
    split
    · exact Says.bind (BHeap.says_find _ _ _ _ _) fun _ => Says.pure _
    · exact Says.pure _
  | clear i =>
    simp only [BHeaps.step]
    split
    · exact Says.bind (Says.bind (BHeap.says_destroyAll _ _ _ _) fun _ => Says.pure _) fun _ => Says.pure _
    · exact Says.pure _

theorem says_run (comp eq : α → α → Bool) (c : BHeaps A α) (ops : List (BOp α)) : Says Q (c.run E comp eq ops) := by
  induction ops generalizing c with
  | nil => exact Says.pure _
  | cons o os ih => exact Says.bind (says_step hA hD comp eq c o) fun c' => ih c'

end BHeaps

end KTL
