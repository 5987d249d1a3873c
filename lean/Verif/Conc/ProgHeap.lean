import Verif.Conc.Prog
import Verif.Containers.BinaryHeap

/- `binary_heap` once more, access by access, so that the accesses of several threads can be interleaved; every function is proved to be
the one of `Containers/BinaryHeap.lean` when it runs by itself. The objects of a thread (`Objs`) are known to that thread alone. -/
namespace KTL
variable {α : Type}

/-! ### Objects, see `Containers/Objects.lean` -/

/-- see `Elt.at`. C++ machine, not library code. -/
def Elt.atP (E : Elt α) (o : Objs α) (p : Nat) : Prog (Obj α) := do
  let bs ← Prog.readBytes p E.size
  match o p with
  | some x => if (x.alive || E.trivial) = true ∧ bs = E.enc x.val then pure x else .ub
  | none => .ub

/-- see `Elt.read`. C++ machine, not library code. -/
def Elt.readP (E : Elt α) (o : Objs α) (p : Nat) : Prog α := do
  let x ← E.atP o p
  pure x.val

/-- see `Elt.construct`. C++ machine, not library code. -/
def Elt.constructP (E : Elt α) (o : Objs α) (p : Nat) (v : α) : Prog (Objs α) :=
  if ((o p).any Obj.alive && !E.trivial) = true then .ub else do
    Prog.writeBytes p (E.enc v)
    pure (o.set p ⟨v, true⟩)

/-- see `Elt.assign`. C++ machine, not library code. -/
def Elt.assignP (E : Elt α) (o : Objs α) (p : Nat) (v : α) : Prog (Objs α) := do
  let x ← E.atP o p
  Prog.writeBytes p (E.enc v)
  pure (o.set p { x with val := v })

/-- see `Elt.moveOut`. C++ machine, not library code. -/
def Elt.moveOutP (E : Elt α) (o : Objs α) (p : Nat) : Prog (α × Objs α) := do
  let x ← E.readP o p
  let o' ← E.assignP o p (E.moved x)
  pure (x, o')

/-- see `Elt.destroy`. C++ machine, not library code. -/
def Elt.destroyP (E : Elt α) (o : Objs α) (p : Nat) : Prog (Objs α) := do
  let x ← E.atP o p
  if x.alive then pure (o.set p { x with alive := false }) else .ub

/-- see `Elt.dealloc`. C++ machine, not library code. -/
def Elt.deallocP (E : Elt α) (o : Objs α) (p n : Nat) : Prog (Objs α) :=
  if E.trivial = false ∧ ∃ k, k < n ∧ (o (p + k * E.size)).any Obj.alive = true then .ub else do
    Prog.ungrab E.size p n
    pure (o.forget p (n * E.size))

/-- see `HArg.fetch`. Specification, not code. -/
def HArg.fetchP (E : Elt α) (o : Objs α) : HArg α → Prog α
  | .val v => pure v
  | .ref p => E.readP o p

/-! ### The class -/

namespace BHeap

/-- `binary_heap.h:67-85` -/
def ofCapP (E : Elt α) (n : Nat) : Prog BHeap := do
  let p ← Prog.grab E.size n
  pure ⟨0, n, p⟩

/-- the loops of `binary_heap.h:178-179`, `binary_heap.h:189-190`, `binary_heap.h:213-214`, `binary_heap.h:359-360`, `binary_heap.h:387-388` -/
def destroyAllP (E : Elt α) (beg i : Nat) : Nat → Objs α → Prog (Objs α)
  | 0, o => pure o
  | n + 1, o => do
    let o' ← E.destroyP o (beg + i * E.size)
    destroyAllP E beg (i + 1) n o'

/-- the loops of `binary_heap.h:127-128`, `binary_heap.h:150-151`, `binary_heap.h:162-163`, `binary_heap.h:202-203` -/
def copyAllP (E : Elt α) (dst src i : Nat) : Nat → Objs α → Prog (Objs α)
  | 0, o => pure o
  | n + 1, o => do
    let v ← E.readP o (src + i * E.size)
    let o' ← E.constructP o (dst + i * E.size) v
    copyAllP E dst src (i + 1) n o'

/-- the loop of `binary_heap.h:383-384` -/
def moveAllP (E : Elt α) (dst src i : Nat) : Nat → Objs α → Prog (Objs α)
  | 0, o => pure o
  | n + 1, o => do
    let r ← E.moveOutP o (src + i * E.size)
    let o' ← E.constructP r.2 (dst + i * E.size) r.1
    moveAllP E dst src (i + 1) n o'

/-- `binary_heap.h:173-183`, `binary_heap.h:185-194`, `binary_heap.h:208-218` -/
def destroyP (E : Elt α) (o : Objs α) (h : BHeap) : Prog (Objs α) :=
  if h.beg ≠ 0 then do
    let o' ← destroyAllP E h.beg 0 h.size o
    E.deallocP o' h.beg h.cap
  else pure o

/-- `binary_heap.h:120-129`, `binary_heap.h:143-152` -/
def copyP (E : Elt α) (o : Objs α) (h : BHeap) : Prog (Objs α × BHeap) := do
  let p ← Prog.grab E.size h.size
  let o' ← copyAllP E p h.beg 0 h.size o
  pure (o', ⟨h.size, h.size, p⟩)

/-- `binary_heap.h:374-397` -/
def setSizeP (E : Elt α) (o : Objs α) (h : BHeap) (n : Nat) : Prog (Objs α × BHeap) := do
  let p ← Prog.grab E.size n
  let o' ← if h.beg ≠ 0 then do
      let o1 ← moveAllP E p h.beg 0 (Min.min h.size n) o
      let o2 ← destroyAllP E h.beg 0 h.size o1
      E.deallocP o2 h.beg h.cap
    else pure o
  pure (o', ⟨Min.min h.size n, n, p⟩)

/-- `binary_heap.h:366-372` -/
def expandP (E : Elt α) (o : Objs α) (h : BHeap) (n : Nat) : Prog (Objs α × BHeap) :=
  setSizeP E o h (h.cap + Max.max h.cap n)

/-- `binary_heap.h:285-289` -/
def reserveP (E : Elt α) (o : Objs α) (h : BHeap) (n : Nat) : Prog (Objs α × BHeap) :=
  if h.cap < n then setSizeP E o h n else pure (o, h)

/-- the loop of `percolateUp` `binary_heap.h:418-422` -/
def upLoopP (E : Elt α) (comp : α → α → Bool) (beg : Nat) (value : α) (index : Nat) (o : Objs α) : Prog (Nat × Objs α) :=
  if h : index ≠ 0 then do
    let pv ← E.readP o (beg + (index - 1) / 2 * E.size)
    if comp value pv then do
      let r ← E.moveOutP o (beg + (index - 1) / 2 * E.size)
      let o' ← E.assignP r.2 (beg + index * E.size) r.1
      upLoopP E comp beg value ((index - 1) / 2) o'
    else pure (index, o)
  else pure (index, o)
termination_by index
decreasing_by omega

/-- `percolateUp` `binary_heap.h:414-427` -/
def percolateUpP (E : Elt α) (comp : α → α → Bool) (beg index : Nat) (o : Objs α) : Prog (Nat × Objs α) := do
  let value ← E.readP o (beg + index * E.size)
  let r ← upLoopP E comp beg value index o
  let o' ← E.assignP r.2 (beg + r.1 * E.size) value
  pure (r.1, o')

/-- one test of `binary_heap.h:442-446` -/
def betterP (E : Elt α) (comp : α → α → Bool) (beg size : Nat) (o : Objs α) (c child : Nat) : Prog Nat :=
  if c < size then do
    let x ← E.readP o (beg + c * E.size)
    let y ← E.readP o (beg + child * E.size)
    pure (if comp x y then c else child)
  else pure child

/-- the loop of `percolateDown` `binary_heap.h:435-456`, see `downLoop` -/
def downLoopP (E : Elt α) (comp : α → α → Bool) (beg size : Nat) : Nat → Nat → Objs α → Prog (Nat × Objs α)
  | 0, _, _ => .ub
  | fuel + 1, parent, o =>
    if parent < size then do
      let c ← betterP E comp beg size o (parent * 2 + 1) parent
      let child ← betterP E comp beg size o (parent * 2 + 2) c
      if child = parent then pure (parent, o) else do
        let t ← E.moveOutP o (beg + child * E.size)
        let p ← E.moveOutP t.2 (beg + parent * E.size)
        let o1 ← E.assignP p.2 (beg + child * E.size) p.1
        let o2 ← E.assignP o1 (beg + parent * E.size) t.1
        downLoopP E comp beg size fuel child o2
    else pure (parent, o)

/-- `percolateDown` `binary_heap.h:429-459` -/
def percolateDownP (E : Elt α) (comp : α → α → Bool) (beg size index : Nat) (o : Objs α) : Prog (Objs α) := do
  let value ← E.readP o (beg + index * E.size)
  let r ← downLoopP E comp beg size (size + 1) index o
  E.assignP r.2 (beg + r.1 * E.size) value

/-- `binary_heap.h:298-308` -/
def insertP (E : Elt α) (comp : α → α → Bool) (o : Objs α) (h : BHeap) (x : HArg α) : Prog (Nat × Objs α × BHeap) := do
  let r ← if h.size = h.cap then expandP E o h 1 else pure (o, h)
  let v ← x.fetchP E r.1
  let o1 ← E.constructP r.1 (r.2.beg + r.2.size * E.size) v
  let u ← percolateUpP E comp r.2.beg r.2.size o1
  pure (r.2.beg + u.1 * E.size, u.2, { r.2 with size := r.2.size + 1 })

/-- the loops of `binary_heap.h:99-100`, `binary_heap.h:116-117` -/
def insertAllP (E : Elt α) (comp : α → α → Bool) (o : Objs α) (h : BHeap) : List α → Prog (Objs α × BHeap)
  | [] => pure (o, h)
  | v :: vs => do
    let r ← insertP E comp o h (.val v)
    insertAllP E comp r.2.1 r.2.2 vs

/-- `binary_heap.h:92-118` -/
def ofListP (E : Elt α) (comp : α → α → Bool) (o : Objs α) (vs : List α) : Prog (Objs α × BHeap) := do
  let r ← ofCapP E vs.length
  insertAllP E comp o r vs

/-- `binary_heap.h:314-319` -/
def peekP (E : Elt α) (o : Objs α) (h : BHeap) : Prog α := E.readP o h.beg

/-- the move assignment of `binary_heap.h:331`, see `moveElem` -/
def moveElemP (E : Elt α) (o : Objs α) (dst src : Nat) : Prog (Objs α) :=
  if dst = src then do
    let v ← E.readP o src
    E.assignP o dst (E.selfMoved v)
  else do
    let r ← E.moveOutP o src
    E.assignP r.2 dst r.1

/-- `binary_heap.h:325-336` -/
def popP (E : Elt α) (comp : α → α → Bool) (o : Objs α) (h : BHeap) : Prog (α × Objs α × BHeap) := do
  let root ← E.readP o h.beg
  let o1 ← moveElemP E o h.beg (h.beg + (h.size - 1) * E.size)
  let o2 ← E.destroyP o1 (h.beg + (h.size - 1) * E.size)
  let o3 ← percolateDownP E comp h.beg (h.size - 1) 0 o2
  pure (root, o3, { h with size := h.size - 1 })

/-- `binary_heap.h:343-352` -/
def findP (E : Elt α) (eq : α → Bool) (o : Objs α) (beg i : Nat) : Nat → Prog Nat
  | 0 => pure i
  | n + 1 => do
    let x ← E.readP o (beg + i * E.size)
    if eq x then pure i else findP E eq o beg (i + 1) n

/-- `binary_heap.h:357-363` -/
def clearP (E : Elt α) (o : Objs α) (h : BHeap) : Prog (Objs α × BHeap) := do
  let o' ← destroyAllP E h.beg 0 h.size o
  pure (o', { h with size := 0 })

end BHeap

/-! ### Programs of a thread -/

/-- The heaps of a thread, its objects, and what it has seen, see `BHeaps`. Specification, not code. -/
structure THeaps (α : Type) where
  objs : Objs α
  hs : List BHeap
  seen : List (HObs α) := []

/-- `hs[i] = hs[j]` `binary_heap.h:185-206`, see `BHeaps.copyAssign` -/
def THeaps.copyAssign (E : Elt α) (c : THeaps α) (i j : Nat) : Prog (THeaps α) :=
  match c.hs[i]?, c.hs[j]? with
  | some h, some g => do
    let x ← h.destroyP E c.objs
    let p ← Prog.grab E.size g.size
    let o ← BHeap.copyAllP E p (match (c.hs.set i ⟨g.size, g.size, p⟩)[j]? with
      | some g' => g'.beg
      | none => 0) 0 g.size x
    pure { c with objs := o, hs := c.hs.set i ⟨g.size, g.size, p⟩ }
  | _, _ => pure c

/-- `hs[i] = std::move(hs[j])` `binary_heap.h:208-230`, see `BHeaps.moveAssign` -/
def THeaps.moveAssign (E : Elt α) (c : THeaps α) (i j : Nat) : Prog (THeaps α) :=
  match c.hs[i]?, c.hs[j]? with
  | some h, some g => do
    let x ← h.destroyP E c.objs
    pure { c with objs := x, hs := (c.hs.set i g).set j BHeap.null }
  | _, _ => pure c

/-- One operation, see `BHeaps.step`. Specification, not code. -/
def THeaps.step (E : Elt α) (comp eq : α → α → Bool) (c : THeaps α) : BOp α → Prog (THeaps α)
  | .new => pure { c with hs := c.hs ++ [BHeap.null] }
  | .newCap n => do
    let r ← BHeap.ofCapP E n
    pure { c with hs := c.hs ++ [r] }
  | .newList vs => do
    let r ← BHeap.ofListP E comp c.objs vs
    pure { c with objs := r.1, hs := c.hs ++ [r.2] }
  | .copy j =>
    match c.hs[j]? with
    | some h => do
      let r ← h.copyP E c.objs
      pure { c with objs := r.1, hs := c.hs ++ [r.2] }
    | none => pure c
  | .move j =>
    match c.hs[j]? with
    | some h => pure { c with hs := c.hs.set j BHeap.null ++ [h] }
    | none => pure c
  | .copyAssign i j => if i = j then pure c else c.copyAssign E i j
  | .moveAssign i j => c.moveAssign E i j
  | .destroy i =>
    match c.hs[i]? with
    | some h => do
      let x ← h.destroyP E c.objs
      pure { c with objs := x, hs := c.hs.eraseIdx i }
    | none => pure c
  | .reserve i n =>
    match c.hs[i]? with
    | some h => do
      let r ← h.reserveP E c.objs n
      pure { c with objs := r.1, hs := c.hs.set i r.2 }
    | none => pure c
  | .insert i v =>
    match c.hs[i]? with
    | some h => do
      let r ← h.insertP E comp c.objs (.val v)
      let x ← E.readP r.2.1 r.1
      pure { objs := r.2.1, hs := c.hs.set i r.2.2, seen := c.seen ++ [.elem x] }
    | none => pure c
  | .insertFrom i j k =>
    match c.hs[i]?, c.hs[j]? with
    | some h, some g =>
      if i ≠ j ∧ k < g.size then do
        let r ← h.insertP E comp c.objs (.ref (g.beg + k * E.size))
        pure { c with objs := r.2.1, hs := c.hs.set i r.2.2 }
      else pure c
    | _, _ => pure c
  | .pop i =>
    match c.hs[i]? with
    | some h =>
      if 0 < h.size then do
        let r ← h.popP E comp c.objs
        pure { objs := r.2.1, hs := c.hs.set i r.2.2, seen := c.seen ++ [.elem r.1] }
      else pure c
    | none => pure c
  | .peek i =>
    match c.hs[i]? with
    | some h =>
      if 0 < h.size then do
        let x ← h.peekP E c.objs
        pure { c with seen := c.seen ++ [.elem x] }
      else pure c
    | none => pure c
  | .find i v =>
    match c.hs[i]? with
    | some h => do
      let k ← BHeap.findP E (fun x => eq x v) c.objs h.beg 0 h.size
      pure { c with seen := c.seen ++ [.found (decide (k ≠ h.size))] }
    | none => pure c
  | .clear i =>
    match c.hs[i]? with
    | some h => do
      let r ← h.clearP E c.objs
      pure { c with objs := r.1, hs := c.hs.set i r.2 }
    | none => pure c

/-- Specification, not code. -/
def THeaps.run (E : Elt α) (comp eq : α → α → Bool) (c : THeaps α) : List (BOp α) → Prog (THeaps α)
  | [] => pure c
  | o :: os => do
    let c' ← c.step E comp eq o
    c'.run E comp eq os

/-- Specification, not code. -/
def THeaps.destroyAll (E : Elt α) (o : Objs α) : List BHeap → Prog (Objs α)
  | [] => pure o
  | h :: hs => do
    let o' ← h.destroyP E o
    destroyAll E o' hs

/-- What has been seen, as bytes. Specification, not code. -/
def HObs.bytes (E : Elt α) : HObs α → List UInt8
  | .elem v => E.enc v
  | .found b => [if b then 1 else 0]

/-- A thread that makes heaps, uses them, and destroys them; the result is what it has seen. Specification, not code. -/
def hthread (E : Elt α) (comp eq : α → α → Bool) (ops : List (BOp α)) : Prog (List (List UInt8)) := do
  let c ← THeaps.run E comp eq ⟨fun _ => none, [], []⟩ ops
  let _ ← THeaps.destroyAll E c.objs c.hs
  pure (c.seen.map (HObs.bytes E))

/-! ### A thread by itself -/

section
variable (A : Allocator) (s : A.St) (E : Elt α) (o : Objs α) (comp eq : α → α → Bool)

theorem Elt.seq_at (p : Nat) : (E.atP o p).seq A s = E.at o p >>= fun x => pure (s, x) := by
  simp only [Elt.atP, Elt.at, Prog.seq_bind, Prog.seq_readBytes, bind_assoc, pure_bind]
  refine congrArg _ (funext fun bs => ?_)
  cases o p with
  | none => rfl
  | some x => simp only; split <;> rfl

theorem Elt.seq_read (p : Nat) : (E.readP o p).seq A s = E.read o p >>= fun v => pure (s, v) := by
  simp only [Elt.readP, Elt.read, Prog.seq_bind, Elt.seq_at, Prog.seq_pure, bind_assoc, pure_bind]

theorem Elt.seq_construct (p : Nat) (v : α) : (E.constructP o p v).seq A s = E.construct o p v >>= fun o' => pure (s, o') := by
  unfold Elt.constructP Elt.construct
  split
  · rfl
  · simp only [Prog.seq_bind, Prog.seq_writeBytes, Prog.seq_pure, bind_assoc, pure_bind]

theorem Elt.seq_assign (p : Nat) (v : α) : (E.assignP o p v).seq A s = E.assign o p v >>= fun o' => pure (s, o') := by
  simp only [Elt.assignP, Elt.assign, Prog.seq_bind, Elt.seq_at, Prog.seq_writeBytes, Prog.seq_pure, bind_assoc, pure_bind]

theorem Elt.seq_moveOut (p : Nat) : (E.moveOutP o p).seq A s = E.moveOut o p >>= fun r => pure (s, r) := by
  simp only [Elt.moveOutP, Elt.moveOut, Prog.seq_bind, Elt.seq_read, Elt.seq_assign, Prog.seq_pure, bind_assoc, pure_bind]

theorem Elt.seq_destroy (p : Nat) : (E.destroyP o p).seq A s = E.destroy o p >>= fun o' => pure (s, o') := by
  simp only [Elt.destroyP, Elt.destroy, Prog.seq_bind, Elt.seq_at, bind_assoc, pure_bind]
  refine congrArg _ (funext fun x => ?_)
  split <;> rfl

theorem Elt.seq_dealloc (p n : Nat) : (E.deallocP o p n).seq A s = E.dealloc A s o p n := by
  unfold Elt.deallocP Elt.dealloc
  split
  · rfl
  · simp only [Prog.seq_bind, Prog.seq_ungrab, Prog.seq_pure, bind_assoc, pure_bind]

theorem HArg.seq_fetch (x : HArg α) : (x.fetchP E o).seq A s = x.fetch E o >>= fun v => pure (s, v) := by
  cases x
  · rfl
  · exact Elt.seq_read A s E o _

namespace BHeap

theorem seq_ofCap (n : Nat) : (ofCapP E n).seq A s = ofCap E A s n := by
  simp only [ofCapP, ofCap, Prog.seq_bind, Prog.seq_grab, Prog.seq_pure, bind_assoc, pure_bind]

theorem seq_destroyAll (beg i n : Nat) : (destroyAllP E beg i n o).seq A s = destroyAll E beg i n o >>= fun o' => pure (s, o') := by
  induction n generalizing i o with
  | zero => rfl
  | succ n ih => simp only [destroyAllP, destroyAll, Prog.seq_bind, Elt.seq_destroy, bind_assoc, pure_bind, ih]

theorem seq_copyAll (dst src i n : Nat) : (copyAllP E dst src i n o).seq A s = copyAll E dst src i n o >>= fun o' => pure (s, o') := by
  induction n generalizing i o with
  | zero => rfl
  | succ n ih => simp only [copyAllP, copyAll, Prog.seq_bind, Elt.seq_read, Elt.seq_construct, bind_assoc, pure_bind, ih]

theorem seq_moveAll (dst src i n : Nat) : (moveAllP E dst src i n o).seq A s = moveAll E dst src i n o >>= fun o' => pure (s, o') := by
  induction n generalizing i o with
  | zero => rfl
  | succ n ih => simp only [moveAllP, moveAll, Prog.seq_bind, Elt.seq_moveOut, Elt.seq_construct, bind_assoc, pure_bind, ih]

theorem seq_destroy (h : BHeap) : (h.destroyP E o).seq A s = h.destroy E A s o := by
  unfold destroyP destroy
  split
  · simp only [Prog.seq_bind, seq_destroyAll, Elt.seq_dealloc, bind_assoc, pure_bind]
  · rfl

theorem seq_copy (h : BHeap) : (h.copyP E o).seq A s = h.copy E A s o := by
  simp only [copyP, copy, Prog.seq_bind, Prog.seq_grab, seq_copyAll, Prog.seq_pure, bind_assoc, pure_bind]

theorem seq_setSize (h : BHeap) (n : Nat) : (h.setSizeP E o n).seq A s = h.setSize E A s o n := by
  simp only [setSizeP, setSize, Prog.seq_bind, Prog.seq_grab, bind_assoc, pure_bind]
  refine congrArg _ (funext fun r => ?_)
  split <;> simp only [Prog.seq_bind, seq_moveAll, seq_destroyAll, Elt.seq_dealloc, Prog.seq_pure, bind_assoc, pure_bind]

theorem seq_expand (h : BHeap) (n : Nat) : (h.expandP E o n).seq A s = h.expand E A s o n := seq_setSize A s E o h _

theorem seq_reserve (h : BHeap) (n : Nat) : (h.reserveP E o n).seq A s = h.reserve E A s o n := by
  unfold reserveP reserve
  split
  · exact seq_setSize A s E o h n
  · rfl

theorem seq_upLoop (beg : Nat) (value : α) (index : Nat) :
    (upLoopP E comp beg value index o).seq A s = upLoop E comp beg value index o >>= fun r => pure (s, r) := by
  induction index using Nat.strongRecOn generalizing o with
  | ind index ih =>
    unfold upLoopP upLoop
    by_cases h : index ≠ 0
    · simp only [dif_pos h, Prog.seq_bind, Elt.seq_read, bind_assoc, pure_bind]
      refine congrArg _ (funext fun pv => ?_)
      split
      · simp only [Prog.seq_bind, Elt.seq_moveOut, Elt.seq_assign, bind_assoc, pure_bind]
        refine congrArg _ (funext fun r => congrArg _ (funext fun o' => ih _ (by omega) o'))
      · rfl
    · simp only [dif_neg h]; rfl

theorem seq_percolateUp (beg index : Nat) : (percolateUpP E comp beg index o).seq A s = percolateUp E comp beg index o >>= fun r => pure (s, r) := by
  simp only [percolateUpP, percolateUp, Prog.seq_bind, Elt.seq_read, seq_upLoop, Elt.seq_assign, Prog.seq_pure, bind_assoc, pure_bind]

theorem seq_better (beg size c child : Nat) : (betterP E comp beg size o c child).seq A s = better E comp beg size o c child >>= fun k => pure (s, k) := by
  unfold betterP better
  split
  · simp only [Prog.seq_bind, Elt.seq_read, Prog.seq_pure, bind_assoc, pure_bind]
  · rfl

theorem seq_downLoop (beg size fuel parent : Nat) :
    (downLoopP E comp beg size fuel parent o).seq A s = downLoop E comp beg size fuel parent o >>= fun r => pure (s, r) := by
  induction fuel generalizing parent o with
  | zero => rfl
  | succ fuel ih =>
    unfold downLoopP downLoop
    split
    · simp only [Prog.seq_bind, seq_better, bind_assoc, pure_bind]
      refine congrArg _ (funext fun c => congrArg _ (funext fun child => ?_))
      split
      · rfl
      · simp only [Prog.seq_bind, Elt.seq_moveOut, Elt.seq_assign, bind_assoc, pure_bind, ih]
    · rfl

theorem seq_percolateDown (beg size index : Nat) :
    (percolateDownP E comp beg size index o).seq A s = percolateDown E comp beg size index o >>= fun o' => pure (s, o') := by
  simp only [percolateDownP, percolateDown, Prog.seq_bind, Elt.seq_read, seq_downLoop, Elt.seq_assign, bind_assoc, pure_bind]

theorem seq_insert (h : BHeap) (x : HArg α) : (h.insertP E comp o x).seq A s = h.insert E comp A s o x >>= fun r => pure (r.2.1, r.1, r.2.2.1, r.2.2.2) := by
  unfold insertP insert
  split <;> simp only [Prog.seq_bind, seq_expand, HArg.seq_fetch, Elt.seq_construct, seq_percolateUp, Prog.seq_pure, bind_assoc, pure_bind]

theorem seq_insertAll (h : BHeap) (vs : List α) : (h.insertAllP E comp o vs).seq A s = h.insertAll E comp A s o vs := by
  induction vs generalizing h o s with
  | nil => rfl
  | cons v vs ih => simp only [insertAllP, insertAll, Prog.seq_bind, seq_insert, bind_assoc, pure_bind, ih]

theorem seq_ofList (vs : List α) : (ofListP E comp o vs).seq A s = ofList E comp A s o vs := by
  simp only [ofListP, ofList, Prog.seq_bind, seq_ofCap, seq_insertAll]

theorem seq_moveElem (dst src : Nat) : (moveElemP E o dst src).seq A s = moveElem E o dst src >>= fun o' => pure (s, o') := by
  unfold moveElemP moveElem
  split <;> simp only [Prog.seq_bind, Elt.seq_read, Elt.seq_moveOut, Elt.seq_assign, bind_assoc, pure_bind]

theorem seq_pop (h : BHeap) : (h.popP E comp o).seq A s = h.pop E comp o >>= fun r => pure (s, r) := by
  simp only [popP, pop, Prog.seq_bind, Elt.seq_read, seq_moveElem, Elt.seq_destroy, seq_percolateDown, Prog.seq_pure, bind_assoc, pure_bind]

theorem seq_find (f : α → Bool) (beg i n : Nat) : (findP E f o beg i n).seq A s = find E f o beg i n >>= fun k => pure (s, k) := by
  induction n generalizing i with
  | zero => rfl
  | succ n ih =>
    simp only [findP, find, Prog.seq_bind, Elt.seq_read, bind_assoc, pure_bind]
    refine congrArg _ (funext fun x => ?_)
    split
    · rfl
    · exact ih _

theorem seq_clear (h : BHeap) : (h.clearP E o).seq A s = h.clear E o >>= fun r => pure (s, r) := by
  simp only [clearP, clear, Prog.seq_bind, seq_destroyAll, Prog.seq_pure, bind_assoc, pure_bind]

end BHeap

theorem THeaps.seq_copyAssign (c : THeaps α) (i j : Nat) :
    (c.copyAssign E i j).seq A s = BHeaps.copyAssign E ⟨s, c.objs, c.hs, c.seen⟩ i j >>= fun c' => pure (c'.st, ⟨c'.objs, c'.hs, c'.seen⟩) := by
  unfold THeaps.copyAssign BHeaps.copyAssign
  cases h1 : c.hs[i]? with
  | none => rfl
  | some h =>
    cases h2 : c.hs[j]? with
    | none => rfl
    | some g =>
      simp only [Prog.seq_bind, BHeap.seq_destroy, Prog.seq_grab, BHeap.seq_copyAll, Prog.seq_pure, bind_assoc, pure_bind]
      rfl

theorem THeaps.seq_moveAssign (c : THeaps α) (i j : Nat) :
    (c.moveAssign E i j).seq A s = BHeaps.moveAssign E ⟨s, c.objs, c.hs, c.seen⟩ i j >>= fun c' => pure (c'.st, ⟨c'.objs, c'.hs, c'.seen⟩) := by
  unfold THeaps.moveAssign BHeaps.moveAssign
  cases h1 : c.hs[i]? with
  | none => rfl
  | some h =>
    cases h2 : c.hs[j]? with
    | none => rfl
    | some g => simp only [Prog.seq_bind, BHeap.seq_destroy, Prog.seq_pure, bind_assoc, pure_bind]

theorem THeaps.seq_step (c : THeaps α) (op : BOp α) :
    (c.step E comp eq op).seq A s = BHeaps.step E comp eq ⟨s, c.objs, c.hs, c.seen⟩ op >>= fun c' => pure (c'.st, ⟨c'.objs, c'.hs, c'.seen⟩) := by
  cases op <;> simp only [THeaps.step, BHeaps.step]
  case new => rfl
  case newCap n => simp only [Prog.seq_bind, BHeap.seq_ofCap, Prog.seq_pure, bind_assoc, pure_bind]
  case newList vs => simp only [Prog.seq_bind, BHeap.seq_ofList, Prog.seq_pure, bind_assoc, pure_bind]
  case copy j => cases c.hs[j]? <;> simp only [Prog.seq_bind, BHeap.seq_copy, Prog.seq_pure, bind_assoc, pure_bind]
  case move j => cases c.hs[j]? <;> rfl
  case copyAssign i j =>
    split
    · rfl
    · exact THeaps.seq_copyAssign A s E c i j
  case moveAssign i j => exact THeaps.seq_moveAssign A s E c i j
  case destroy i => cases c.hs[i]? <;> simp only [Prog.seq_bind, BHeap.seq_destroy, Prog.seq_pure, bind_assoc, pure_bind]
  case reserve i n => cases c.hs[i]? <;> simp only [Prog.seq_bind, BHeap.seq_reserve, Prog.seq_pure, bind_assoc, pure_bind]
  case insert i v => cases c.hs[i]? <;> simp only [Prog.seq_bind, BHeap.seq_insert, Elt.seq_read, Prog.seq_pure, bind_assoc, pure_bind]
  case insertFrom i j k =>
    cases c.hs[i]? with
    | none => rfl
    | some h =>
      cases c.hs[j]? with
      | none => rfl
      | some g => simp only; split <;> simp only [Prog.seq_bind, BHeap.seq_insert, Prog.seq_pure, bind_assoc, pure_bind]
  case pop i =>
    cases c.hs[i]? with
    | none => rfl
    | some h => simp only; split <;> simp only [Prog.seq_bind, BHeap.seq_pop, Prog.seq_pure, bind_assoc, pure_bind]
  case peek i =>
    cases c.hs[i]? with
    | none => rfl
    | some h => simp only [BHeap.peekP, BHeap.peek]; split <;> simp only [Prog.seq_bind, Elt.seq_read, Prog.seq_pure, bind_assoc, pure_bind]
  case find i v => cases c.hs[i]? <;> simp only [Prog.seq_bind, BHeap.seq_find, Prog.seq_pure, bind_assoc, pure_bind]
  case clear i => cases c.hs[i]? <;> simp only [Prog.seq_bind, BHeap.seq_clear, Prog.seq_pure, bind_assoc, pure_bind]

theorem THeaps.seq_run (c : THeaps α) (ops : List (BOp α)) :
    (c.run E comp eq ops).seq A s = BHeaps.run E comp eq ⟨s, c.objs, c.hs, c.seen⟩ ops >>= fun c' => pure (c'.st, ⟨c'.objs, c'.hs, c'.seen⟩) := by
  induction ops generalizing c s with
  | nil => rfl
  | cons op ops ih =>
    simp only [THeaps.run, BHeaps.run, Prog.seq_bind, THeaps.seq_step, bind_assoc, pure_bind, ih]

theorem THeaps.seq_destroyAll (hs : List BHeap) : (THeaps.destroyAll E o hs).seq A s = BHeaps.destroyAll E s o hs := by
  induction hs generalizing s o with
  | nil => rfl
  | cons h hs ih => simp only [THeaps.destroyAll, BHeaps.destroyAll, Prog.seq_bind, BHeap.seq_destroy, ih]

/-- By itself the thread is the program with heaps of `Containers/BinaryHeap.lean`. -/
theorem seq_hthread (ops : List (BOp α)) : (hthread E comp eq ops).seq A s = (do
    let c ← BHeaps.run E comp eq ⟨s, fun _ => none, [], []⟩ ops
    let x ← BHeaps.destroyAll E c.st c.objs c.hs
    pure (x.1, c.seen.map (HObs.bytes E))) := by
  simp only [hthread, Prog.seq_bind, THeaps.seq_run, THeaps.seq_destroyAll, Prog.seq_pure, bind_assoc, pure_bind]

end

end KTL
