import Verif.Conc.ProgVector
import Verif.Containers.Array

/- `trivial_array` once more, access by access, see `Conc/ProgVector.lean`. -/
namespace KTL

namespace Arr

/-- `trivial_array.h:58-61` -/
def ofSizeP (sz n : Nat) : Prog Arr := do
  let p ← Prog.grab sz n
  pure ⟨p, p + n * sz⟩

/-- `trivial_array.h:69-75` -/
def ofFillP (sz n : Nat) (x : Arg) : Prog Arr := do
  let v ← ofSizeP sz n
  let bs ← if n = 0 then pure [] else x.fetchP sz
  Prog.writeBytes v.beg (List.replicate n bs).flatten
  pure v

/-- `trivial_array.h:82-93`, `trivial_array.h:101-108` -/
def ofRangeP (sz n : Nat) (src : Arg) : Prog Arr := do
  let v ← ofSizeP sz n
  src.copyP v.beg (n * sz)
  pure v

/-- `trivial_array.h:110-117` -/
def copyP (sz : Nat) (o : Arr) : Prog Arr := do
  let v ← ofSizeP sz (o.size sz)
  if o.beg ≠ 0 then Prog.memcpy v.beg o.beg (o.size sz * sz)
  pure v

/-- `trivial_array.h:154-158` -/
def destroyP (sz : Nat) (a : Arr) : Prog Unit :=
  if a.beg ≠ 0 then Prog.ungrab sz a.beg (a.size sz) else pure ()

/-- `trivial_array.h:264-280` -/
def resizeP (sz : Nat) (a : Arr) (n : Nat) : Prog Arr :=
  if a.size sz ≠ n then do
    let p ← Prog.grab sz n
    if a.beg ≠ 0 then do
      Prog.memcpy p a.beg (Min.min (a.size sz) n * sz)
      Prog.ungrab sz a.beg (a.size sz)
    pure ⟨p, p + n * sz⟩
  else pure a

/-- `trivial_array.h:289-300` -/
def assignRoomP (sz : Nat) (a : Arr) (n : Nat) : Prog Arr :=
  if n ≠ a.size sz then do
    let p ← Prog.grab sz n
    a.destroyP sz
    pure ⟨p, p + n * sz⟩
  else pure a

/-- `trivial_array.h:287-303` -/
def assignP (sz : Nat) (a : Arr) (n : Nat) (src : Arg) : Prog Arr := do
  let v ← assignRoomP sz a n
  src.copyP v.beg (n * sz)
  pure v

section
variable (A : Allocator) (s : A.St) (sz : Nat) (v : Arr)

theorem seq_ofSize (n : Nat) : (ofSizeP sz n).seq A s = Arr.ofSize sz A s n := by
  simp only [ofSizeP, Arr.ofSize, Prog.seq_bind, Prog.seq_grab, Prog.seq_pure, bind_assoc, pure_bind]

theorem seq_ofFill (n : Nat) (x : Arg) : (ofFillP sz n x).seq A s = Arr.ofFill sz A s n x := by
  simp only [ofFillP, Arr.ofFill, Prog.seq_bind, seq_ofSize]
  refine congrArg _ (funext fun r => ?_)
  split <;> simp only [Prog.seq_bind, Prog.seq_pure, Vec.seq_fetch, Prog.seq_writeBytes, bind_assoc, pure_bind]

theorem seq_ofRange (n : Nat) (x : Arg) : (ofRangeP sz n x).seq A s = Arr.ofRange sz A s n x := by
  simp only [ofRangeP, Arr.ofRange, Prog.seq_bind, seq_ofSize, Vec.seq_argCopy, Prog.seq_pure, bind_assoc, pure_bind]

theorem seq_copy : (copyP sz v).seq A s = Arr.copy sz A s v := by
  simp only [copyP, Arr.copy, Prog.seq_bind, seq_ofSize]
  refine congrArg _ (funext fun r => ?_)
  split <;> simp only [Prog.seq_bind, Prog.seq_pure, Prog.seq_memcpy, bind_assoc, pure_bind]

theorem seq_destroy : (destroyP sz v).seq A s = Arr.destroy sz A s v >>= fun s' => pure (s', ()) := by
  unfold destroyP Arr.destroy
  split <;> rfl

theorem seq_resize (n : Nat) : (resizeP sz v n).seq A s = Arr.resize sz A s v n := by
  unfold resizeP Arr.resize
  split
  · simp only [Prog.seq_bind, Prog.seq_grab, bind_assoc, pure_bind]
    refine congrArg _ (funext fun r => ?_)
    split <;> simp only [Prog.seq_bind, Prog.seq_pure, Prog.seq_memcpy, Prog.seq_ungrab, bind_assoc, pure_bind]
  · rfl

theorem seq_assignRoom (n : Nat) : (assignRoomP sz v n).seq A s = Arr.assignRoom sz A s v n := by
  unfold assignRoomP Arr.assignRoom
  split
  · simp only [Prog.seq_bind, Prog.seq_grab, seq_destroy, Prog.seq_pure, bind_assoc, pure_bind]
  · rfl

theorem seq_assign (n : Nat) (x : Arg) : (assignP sz v n x).seq A s = Arr.assign sz A s v n x := by
  simp only [assignP, Arr.assign, Prog.seq_bind, seq_assignRoom, Vec.seq_argCopy, Prog.seq_pure, bind_assoc, pure_bind]

end
end Arr

/-- The arrays of a thread and what it has seen, see `Arrs`. Specification, not code. -/
structure TArrs where
  vs : List Arr
  seen : List (List UInt8) := []

/-- `vs[i] = vs[j]` `trivial_array.h:160-176`, see `Arrs.copyAssign` -/
def TArrs.copyAssign (sz : Nat) (c : TArrs) (i j : Nat) : Prog TArrs :=
  match c.vs[i]?, c.vs[j]? with
  | some v, some o => do
    v.destroyP sz
    let r ← Arr.ofSizeP sz (o.size sz)
    Prog.memcpy r.beg (match (c.vs.set i r)[j]? with
      | some o' => o'.beg
      | none => 0) (o.size sz * sz)
    pure { c with vs := c.vs.set i r }
  | _, _ => pure c

/-- `vs[i] = std::move(vs[j])` `trivial_array.h:178-190`, see `Arrs.moveAssign` -/
def TArrs.moveAssign (sz : Nat) (c : TArrs) (i j : Nat) : Prog TArrs :=
  match c.vs[i]?, c.vs[j]? with
  | some v, some o => do
    v.destroyP sz
    pure { c with vs := (c.vs.set i o).set j Arr.null }
  | _, _ => pure c

/-- One operation, see `Arrs.step`. Specification, not code. -/
def TArrs.step (sz : Nat) (c : TArrs) : ArrOp → Prog TArrs
  | .new => pure { c with vs := c.vs ++ [Arr.null] }
  | .newSize n => do
    let r ← Arr.ofSizeP sz n
    pure { c with vs := c.vs ++ [r] }
  | .newFill n x =>
    if x.length = sz then do
      let r ← Arr.ofFillP sz n (.val x)
      pure { c with vs := c.vs ++ [r] }
    else pure c
  | .newRange xs =>
    if ∀ x ∈ xs, x.length = sz then do
      let r ← Arr.ofRangeP sz xs.length (.val xs.flatten)
      pure { c with vs := c.vs ++ [r] }
    else pure c
  | .copy j =>
    match c.vs[j]? with
    | some o => do
      let r ← Arr.copyP sz o
      pure { c with vs := c.vs ++ [r] }
    | none => pure c
  | .move j =>
    match c.vs[j]? with
    | some o => pure { c with vs := c.vs.set j Arr.null ++ [o] }
    | none => pure c
  | .copyAssign i j => if i = j then pure c else c.copyAssign sz i j
  | .moveAssign i j => c.moveAssign sz i j
  | .destroy i =>
    match c.vs[i]? with
    | some v => do
      v.destroyP sz
      pure { c with vs := c.vs.eraseIdx i }
    | none => pure c
  | .resize i n =>
    match c.vs[i]? with
    | some v => do
      let r ← v.resizeP sz n
      pure { c with vs := c.vs.set i r }
    | none => pure c
  | .assign i xs =>
    match c.vs[i]? with
    | some v =>
      if ∀ x ∈ xs, x.length = sz then do
        let r ← v.assignP sz xs.length (.val xs.flatten)
        pure { c with vs := c.vs.set i r }
      else pure c
    | none => pure c
  | .assignFrom i j a n =>
    match c.vs[i]?, c.vs[j]? with
    | some v, some o =>
      if i ≠ j ∧ a + n ≤ o.size sz then do
        let r ← v.assignP sz n (.ref (o.beg + a * sz))
        pure { c with vs := c.vs.set i r }
      else pure c
    | _, _ => pure c
  | .write i k x =>
    match c.vs[i]? with
    | some v =>
      if k < v.size sz ∧ x.length = sz then do
        Prog.writeBytes (v.beg + k * sz) x
        pure c
      else pure c
    | none => pure c
  | .read i k =>
    match c.vs[i]? with
    | some v =>
      if k < v.size sz then do
        let y ← Prog.readBytes (v.beg + k * sz) sz
        pure { c with seen := c.seen ++ [y] }
      else pure c
    | none => pure c

/-- Specification, not code. -/
def TArrs.run (sz : Nat) (c : TArrs) : List ArrOp → Prog TArrs
  | [] => pure c
  | o :: os => do
    let c' ← c.step sz o
    c'.run sz os

/-- Specification, not code. -/
def TArrs.destroyAll (sz : Nat) : List Arr → Prog Unit
  | [] => pure ()
  | v :: vs => do
    v.destroyP sz
    destroyAll sz vs

/-- A thread that makes arrays, uses them, and destroys them; the result is what it has seen. Specification, not code. -/
def athread (sz : Nat) (ops : List ArrOp) : Prog (List (List UInt8)) := do
  let c ← TArrs.run sz ⟨[], []⟩ ops
  TArrs.destroyAll sz c.vs
  pure c.seen

/-! ### A thread by itself -/

section
variable (A : Allocator) (s : A.St) (sz : Nat)

theorem TArrs.seq_copyAssign (c : TArrs) (i j : Nat) :
    (c.copyAssign sz i j).seq A s = Arrs.copyAssign sz ⟨s, c.vs, c.seen⟩ i j >>= fun c' => pure (c'.st, ⟨c'.vs, c'.seen⟩) := by
  unfold TArrs.copyAssign Arrs.copyAssign
  split
  · rename_i h1 h2
    simp only [h1, h2, Prog.seq_bind, Arr.seq_destroy, Arr.seq_ofSize, Prog.seq_memcpy, Prog.seq_pure, bind_assoc, pure_bind]
    rfl
  · rename_i h
    cases h1 : c.vs[i]? with
    | none => rfl
    | some v =>
      cases h2 : c.vs[j]? with
      | none => rfl
      | some o => exact (h v o h1 h2).elim

theorem TArrs.seq_moveAssign (c : TArrs) (i j : Nat) :
    (c.moveAssign sz i j).seq A s = Arrs.moveAssign sz ⟨s, c.vs, c.seen⟩ i j >>= fun c' => pure (c'.st, ⟨c'.vs, c'.seen⟩) := by
  unfold TArrs.moveAssign Arrs.moveAssign
  cases h1 : c.vs[i]? with
  | none => rfl
  | some v =>
    cases h2 : c.vs[j]? with
    | none => rfl
    | some o => simp only [Prog.seq_bind, Arr.seq_destroy, Prog.seq_pure, bind_assoc, pure_bind]

theorem TArrs.seq_step (c : TArrs) (o : ArrOp) :
    (c.step sz o).seq A s = Arrs.step sz ⟨s, c.vs, c.seen⟩ o >>= fun c' => pure (c'.st, ⟨c'.vs, c'.seen⟩) := by
  cases o <;> simp only [TArrs.step, Arrs.step]
  case new => rfl
  case newSize n => simp only [Prog.seq_bind, Arr.seq_ofSize, Prog.seq_pure, bind_assoc, pure_bind]
  case newFill n x => split <;> simp only [Prog.seq_bind, Arr.seq_ofFill, Prog.seq_pure, bind_assoc, pure_bind]
  case newRange xs => split <;> simp only [Prog.seq_bind, Arr.seq_ofRange, Prog.seq_pure, bind_assoc, pure_bind]
  case copy j => cases c.vs[j]? <;> simp only [Prog.seq_bind, Arr.seq_copy, Prog.seq_pure, bind_assoc, pure_bind]
  case move j => cases c.vs[j]? <;> rfl
  case copyAssign i j =>
    split
    · rfl
    · exact TArrs.seq_copyAssign A s sz c i j
  case moveAssign i j => exact TArrs.seq_moveAssign A s sz c i j
  case destroy i => cases c.vs[i]? <;> simp only [Prog.seq_bind, Arr.seq_destroy, Prog.seq_pure, bind_assoc, pure_bind]
  case resize i n => cases c.vs[i]? <;> simp only [Prog.seq_bind, Arr.seq_resize, Prog.seq_pure, bind_assoc, pure_bind]
  case assign i xs =>
    cases c.vs[i]? with
    | none => rfl
    | some v => simp only; split <;> simp only [Prog.seq_bind, Arr.seq_assign, Prog.seq_pure, bind_assoc, pure_bind]
  case assignFrom i j a n =>
    cases c.vs[i]? with
    | none => rfl
    | some v =>
      cases c.vs[j]? with
      | none => rfl
      | some o => simp only; split <;> simp only [Prog.seq_bind, Arr.seq_assign, Prog.seq_pure, bind_assoc, pure_bind]
  case write i k x =>
    cases c.vs[i]? with
    | none => rfl
    | some v => simp only [Arr.write]; split <;> simp only [Prog.seq_bind, Prog.seq_writeBytes, Prog.seq_pure, bind_assoc, pure_bind]
  case read i k =>
    cases c.vs[i]? with
    | none => rfl
    | some v => simp only [Arr.read]; split <;> simp only [Prog.seq_bind, Prog.seq_readBytes, Prog.seq_pure, bind_assoc, pure_bind]

theorem TArrs.seq_run (c : TArrs) (ops : List ArrOp) :
    (c.run sz ops).seq A s = Arrs.run sz ⟨s, c.vs, c.seen⟩ ops >>= fun c' => pure (c'.st, ⟨c'.vs, c'.seen⟩) := by
  induction ops generalizing c s with
  | nil => rfl
  | cons o os ih =>
    simp only [TArrs.run, Arrs.run, Prog.seq_bind, TArrs.seq_step, bind_assoc, pure_bind, ih]

theorem TArrs.seq_destroyAll (vs : List Arr) : (TArrs.destroyAll sz vs).seq A s = Arrs.destroyAll sz s vs >>= fun s' => pure (s', ()) := by
  induction vs generalizing s with
  | nil => rfl
  | cons v vs ih => simp only [TArrs.destroyAll, Arrs.destroyAll, Prog.seq_bind, Arr.seq_destroy, bind_assoc, pure_bind, ih]

/-- By itself the thread is the program with arrays of `Containers/Array.lean`. -/
theorem seq_athread (ops : List ArrOp) : (athread sz ops).seq A s = (do
    let c ← Arrs.run sz ⟨s, [], []⟩ ops
    let s' ← Arrs.destroyAll sz c.st c.vs
    pure (s', c.seen)) := by
  simp only [athread, Prog.seq_bind, TArrs.seq_run, TArrs.seq_destroyAll, Prog.seq_pure, bind_assoc, pure_bind]

end

end KTL
