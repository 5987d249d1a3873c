import Verif.Conc.Prog
import Verif.Containers.Vector

/- `trivial_vector` once more, access by access, so that the accesses of several threads can be interleaved; every function is proved to be
the one of `Containers/Vector.lean` when it runs by itself. -/
namespace KTL

/-- reading an argument, see `Arg.fetch`. C++ machine, not library code. -/
def Arg.fetchP (n : Nat) : Arg → Prog (List UInt8)
  | .val bs => pure bs
  | .ref p => Prog.readBytes p n

/-- copying a range, see `Arg.copy`. C++ machine, not library code. -/
def Arg.copyP (dst n : Nat) : Arg → Prog Unit
  | .val bs => Prog.writeBytes dst bs
  | .ref p => Prog.memcpy dst p n

namespace Vec

/-- `trivial_vector.h:60-64` -/
def ofSizeP (sz n : Nat) : Prog Vec := do
  let p ← Prog.grab sz n
  pure ⟨p, p + n * sz, p + n * sz⟩

/-- `trivial_vector.h:72-79` -/
def ofFillP (sz n : Nat) (x : Arg) : Prog Vec := do
  let v ← ofSizeP sz n
  let bs ← if n = 0 then pure [] else x.fetchP sz
  Prog.writeBytes v.beg (List.replicate n bs).flatten
  pure v

/-- `trivial_vector.h:86-98`, `trivial_vector.h:106-114` -/
def ofRangeP (sz n : Nat) (src : Arg) : Prog Vec := do
  let v ← ofSizeP sz n
  src.copyP v.beg (n * sz)
  pure v

/-- `trivial_vector.h:116-124` -/
def copyP (sz : Nat) (o : Vec) : Prog Vec := do
  let v ← ofSizeP sz (o.size sz)
  if o.beg ≠ 0 then Prog.memcpy v.beg o.beg (o.size sz * sz)
  pure v

/-- `trivial_vector.h:166-170` -/
def destroyP (sz : Nat) (v : Vec) : Prog Unit :=
  if v.beg ≠ 0 then Prog.ungrab sz v.beg (v.capacity sz) else pure ()

/-- `trivial_vector.h:443-459` -/
def setSizeP (sz : Nat) (v : Vec) (n : Nat) : Prog Vec := do
  let p ← Prog.grab sz n
  if v.beg ≠ 0 then do
    Prog.memcpy p v.beg (Min.min (v.size sz) n * sz)
    Prog.ungrab sz v.beg (v.capacity sz)
  pure ⟨p, p + Min.min (v.size sz) n * sz, p + n * sz⟩

/-- `trivial_vector.h:435-441` -/
def expandP (sz : Nat) (v : Vec) (n : Nat) : Prog Vec := setSizeP sz v (v.capacity sz + Max.max (v.capacity sz / 2) n)

/-- `trivial_vector.h:285-291` -/
def resizeP (sz : Nat) (v : Vec) (n : Nat) : Prog Vec := do
  let v' ← if v.capacity sz < n then expandP sz v (n - v.capacity sz) else pure v
  pure { v' with fin := v'.beg + n * sz }

/-- `trivial_vector.h:297-301` -/
def reserveP (sz : Nat) (v : Vec) (n : Nat) : Prog Vec := if v.capacity sz < n then setSizeP sz v n else pure v

/-- `trivial_vector.h:308-315`, `trivial_vector.h:322-329`, `trivial_vector.h:358-366` -/
def pushBackP (sz : Nat) (v : Vec) (x : Arg) : Prog (Nat × Vec) := do
  let v' ← if v.fin = v.max then expandP sz v 1 else pure v
  let bs ← x.fetchP sz
  Prog.writeBytes v'.fin bs
  pure (v'.fin, { v' with fin := v'.fin + sz })

/-- `trivial_vector.h:337-350` -/
def pushRangeP (sz : Nat) (v : Vec) (n : Nat) (src : Arg) : Prog (Nat × Vec) := do
  let v' ← if (v.max - v.fin) / sz < n then expandP sz v n else pure v
  src.copyP v'.fin (n * sz)
  pure (v'.fin, { v' with fin := v'.fin + n * sz })

/-- `trivial_vector.h:394-403` -/
def eraseP (sz : Nat) (v : Vec) (it : Nat) : Prog (Nat × Vec) := do
  Prog.memmove it (it + sz) (((v.fin - it) / sz - 1) * sz)
  pure (it, { v with fin := v.fin - sz })

/-- `trivial_vector.h:411-421` -/
def eraseRangeP (sz : Nat) (v : Vec) (first last : Nat) : Prog (Nat × Vec) := do
  Prog.memmove first last ((v.fin - last) / sz * sz)
  pure (first, { v with fin := v.fin - (last - first) })

section
variable (A : Allocator) (s : A.St) (sz : Nat) (v : Vec)

theorem seq_fetch (n : Nat) (x : Arg) : (x.fetchP n).seq A s = x.fetch n >>= fun bs => pure (s, bs) := by
  cases x
  · rfl
  · exact Prog.seq_readBytes A s _ n

theorem seq_argCopy (dst n : Nat) (x : Arg) : (x.copyP dst n).seq A s = x.copy dst n >>= fun _ => pure (s, ()) := by
  cases x
  · exact Prog.seq_writeBytes A s _ _
  · exact Prog.seq_memcpy A s _ _ n

theorem seq_ofSize (n : Nat) : (ofSizeP sz n).seq A s = Vec.ofSize sz A s n := by
  simp only [ofSizeP, Vec.ofSize, Prog.seq_bind, Prog.seq_grab, Prog.seq_pure, bind_assoc, pure_bind]

theorem seq_ofFill (n : Nat) (x : Arg) : (ofFillP sz n x).seq A s = Vec.ofFill sz A s n x := by
  simp only [ofFillP, Vec.ofFill, Prog.seq_bind, seq_ofSize]
  refine congrArg _ (funext fun r => ?_)
  split <;> simp only [Prog.seq_bind, Prog.seq_pure, seq_fetch, Prog.seq_writeBytes, bind_assoc, pure_bind]

theorem seq_ofRange (n : Nat) (x : Arg) : (ofRangeP sz n x).seq A s = Vec.ofRange sz A s n x := by
  simp only [ofRangeP, Vec.ofRange, Prog.seq_bind, seq_ofSize, seq_argCopy, Prog.seq_pure, bind_assoc, pure_bind]

theorem seq_copy : (copyP sz v).seq A s = Vec.copy sz A s v := by
  simp only [copyP, Vec.copy, Prog.seq_bind, seq_ofSize]
  refine congrArg _ (funext fun r => ?_)
  split <;> simp only [Prog.seq_bind, Prog.seq_pure, Prog.seq_memcpy, bind_assoc, pure_bind]

theorem seq_destroy : (destroyP sz v).seq A s = Vec.destroy sz A s v >>= fun s' => pure (s', ()) := by
  unfold destroyP Vec.destroy
  split <;> rfl

theorem seq_setSize (n : Nat) : (setSizeP sz v n).seq A s = Vec.setSize sz A s v n := by
  simp only [setSizeP, Vec.setSize, Prog.seq_bind, Prog.seq_grab, bind_assoc, pure_bind]
  refine congrArg _ (funext fun r => ?_)
  split <;> simp only [Prog.seq_bind, Prog.seq_pure, Prog.seq_memcpy, Prog.seq_ungrab, bind_assoc, pure_bind]

theorem seq_expand (n : Nat) : (expandP sz v n).seq A s = Vec.expand sz A s v n := seq_setSize A s sz v _

theorem seq_resize (n : Nat) : (resizeP sz v n).seq A s = Vec.resize sz A s v n := by
  unfold resizeP Vec.resize
  split <;> simp only [Prog.seq_bind, Prog.seq_pure, seq_expand, pure_bind]

theorem seq_reserve (n : Nat) : (reserveP sz v n).seq A s = Vec.reserve sz A s v n := by
  unfold reserveP Vec.reserve
  split
  · exact seq_setSize A s sz v n
  · rfl

theorem seq_pushBack (x : Arg) : (pushBackP sz v x).seq A s = Vec.pushBack sz A s v x >>= fun r => pure (r.2.1, r.1, r.2.2) := by
  unfold pushBackP Vec.pushBack
  split <;> simp only [Prog.seq_bind, Prog.seq_pure, seq_expand, seq_fetch, Prog.seq_writeBytes, bind_assoc, pure_bind]

theorem seq_pushRange (n : Nat) (x : Arg) : (pushRangeP sz v n x).seq A s = Vec.pushRange sz A s v n x >>= fun r => pure (r.2.1, r.1, r.2.2) := by
  unfold pushRangeP Vec.pushRange
  split <;> simp only [Prog.seq_bind, Prog.seq_pure, seq_expand, seq_argCopy, bind_assoc, pure_bind]

theorem seq_erase (it : Nat) : (eraseP sz v it).seq A s = Vec.erase sz v it >>= fun r => pure (s, r) := by
  simp only [eraseP, Vec.erase, Prog.seq_bind, Prog.seq_pure, Prog.seq_memmove, bind_assoc, pure_bind]

theorem seq_eraseRange (a b : Nat) : (eraseRangeP sz v a b).seq A s = Vec.eraseRange sz v a b >>= fun r => pure (s, r) := by
  simp only [eraseRangeP, Vec.eraseRange, Prog.seq_bind, Prog.seq_pure, Prog.seq_memmove, bind_assoc, pure_bind]

end
end Vec

/-- The vectors of a thread and what it has seen, see `Vecs`. Specification, not code. -/
structure TVecs where
  vs : List Vec
  seen : List (List UInt8) := []

/-- `vs[i] = vs[j]` `trivial_vector.h:172-189`, see `Vecs.copyAssign` -/
def TVecs.copyAssign (sz : Nat) (c : TVecs) (i j : Nat) : Prog TVecs :=
  match c.vs[i]?, c.vs[j]? with
  | some v, some o => do
    v.destroyP sz
    let r ← Vec.ofSizeP sz (o.size sz)
    Prog.memcpy r.beg (match (c.vs.set i r)[j]? with
      | some o' => o'.beg
      | none => 0) (o.size sz * sz)
    pure { c with vs := c.vs.set i r }
  | _, _ => pure c

/-- `vs[i] = std::move(vs[j])` `trivial_vector.h:191-205`, see `Vecs.moveAssign` -/
def TVecs.moveAssign (sz : Nat) (c : TVecs) (i j : Nat) : Prog TVecs :=
  match c.vs[i]?, c.vs[j]? with
  | some v, some o => do
    v.destroyP sz
    pure { c with vs := (c.vs.set i o).set j Vec.null }
  | _, _ => pure c

/-- One operation, see `Vecs.step`. Specification, not code. -/
def TVecs.step (sz : Nat) (c : TVecs) : VOp → Prog TVecs
  | .new => pure { c with vs := c.vs ++ [Vec.null] }
  | .newSize n => do
    let r ← Vec.ofSizeP sz n
    pure { c with vs := c.vs ++ [r] }
  | .newFill n x =>
    if x.length = sz then do
      let r ← Vec.ofFillP sz n (.val x)
      pure { c with vs := c.vs ++ [r] }
    else pure c
  | .newRange xs =>
    if ∀ x ∈ xs, x.length = sz then do
      let r ← Vec.ofRangeP sz xs.length (.val xs.flatten)
      pure { c with vs := c.vs ++ [r] }
    else pure c
  | .copy j =>
    match c.vs[j]? with
    | some o => do
      let r ← Vec.copyP sz o
      pure { c with vs := c.vs ++ [r] }
    | none => pure c
  | .move j =>
    match c.vs[j]? with
    | some o => pure { c with vs := c.vs.set j Vec.null ++ [o] }
    | none => pure c
  | .copyAssign i j => if i = j then pure c else c.copyAssign sz i j
  | .moveAssign i j => c.moveAssign sz i j
  | .destroy i =>
    match c.vs[i]? with
    | some v => do
      v.destroyP sz
      pure { c with vs := c.vs.eraseIdx i }
    | none => pure c
  | .push i x =>
    match c.vs[i]? with
    | some v =>
      if x.length = sz then do
        let r ← v.pushBackP sz (.val x)
        let y ← Prog.readBytes r.1 sz
        pure { c with vs := c.vs.set i r.2, seen := c.seen ++ [y] }
      else pure c
    | none => pure c
  | .pushRange i xs =>
    match c.vs[i]? with
    | some v =>
      if ∀ x ∈ xs, x.length = sz then do
        let r ← v.pushRangeP sz xs.length (.val xs.flatten)
        let y ← Prog.readBytes r.1 (xs.length * sz)
        pure { c with vs := c.vs.set i r.2, seen := c.seen ++ [y] }
      else pure c
    | none => pure c
  | .pushFrom i j a n =>
    match c.vs[i]?, c.vs[j]? with
    | some v, some o =>
      if i ≠ j ∧ a + n ≤ o.size sz then do
        let r ← v.pushRangeP sz n (.ref (o.beg + a * sz))
        let y ← Prog.readBytes r.1 (n * sz)
        pure { c with vs := c.vs.set i r.2, seen := c.seen ++ [y] }
      else pure c
    | _, _ => pure c
  | .erase i k =>
    match c.vs[i]? with
    | some v =>
      if k < v.size sz then do
        let r ← v.eraseP sz (v.beg + k * sz)
        let y ← Prog.readBytes r.1 (r.2.fin - r.1)
        pure { c with vs := c.vs.set i r.2, seen := c.seen ++ [y] }
      else pure c
    | none => pure c
  | .eraseRange i a n =>
    match c.vs[i]? with
    | some v =>
      if a + n ≤ v.size sz then do
        let r ← v.eraseRangeP sz (v.beg + a * sz) (v.beg + (a + n) * sz)
        let y ← Prog.readBytes r.1 (r.2.fin - r.1)
        pure { c with vs := c.vs.set i r.2, seen := c.seen ++ [y] }
      else pure c
    | none => pure c
  | .resize i n =>
    match c.vs[i]? with
    | some v => do
      let r ← v.resizeP sz n
      pure { c with vs := c.vs.set i r }
    | none => pure c
  | .reserve i n =>
    match c.vs[i]? with
    | some v => do
      let r ← v.reserveP sz n
      pure { c with vs := c.vs.set i r }
    | none => pure c
  | .clear i =>
    match c.vs[i]? with
    | some v => pure { c with vs := c.vs.set i v.clear }
    | none => pure c
  | .write i k x =>
    match c.vs[i]? with
    | some v =>
      if k < v.size sz ∧ x.length = sz then do
        Prog.writeBytes (v.beg + k * sz) x
        pure c
      else pure c
    | none => pure c
  | .read i k =>
    match c.vs[i]? with
    | some v =>
      if k < v.size sz then do
        let y ← Prog.readBytes (v.beg + k * sz) sz
        pure { c with seen := c.seen ++ [y] }
      else pure c
    | none => pure c

/-- Specification, not code. -/
def TVecs.run (sz : Nat) (c : TVecs) : List VOp → Prog TVecs
  | [] => pure c
  | o :: os => do
    let c' ← c.step sz o
    c'.run sz os

/-- Specification, not code. -/
def TVecs.destroyAll (sz : Nat) : List Vec → Prog Unit
  | [] => pure ()
  | v :: vs => do
    v.destroyP sz
    destroyAll sz vs

/-- A thread that makes vectors, uses them, and destroys them; the result is what it has seen. Specification, not code. -/
def vthread (sz : Nat) (ops : List VOp) : Prog (List (List UInt8)) := do
  let c ← TVecs.run sz ⟨[], []⟩ ops
  TVecs.destroyAll sz c.vs
  pure c.seen

/-! ### A thread by itself -/

section
variable (A : Allocator) (s : A.St) (sz : Nat)

theorem TVecs.seq_copyAssign (c : TVecs) (i j : Nat) :
    (c.copyAssign sz i j).seq A s = Vecs.copyAssign sz ⟨s, c.vs, c.seen⟩ i j >>= fun c' => pure (c'.st, ⟨c'.vs, c'.seen⟩) := by
  unfold TVecs.copyAssign Vecs.copyAssign
  split
  · rename_i h1 h2
    simp only [h1, h2, Prog.seq_bind, Vec.seq_destroy, Vec.seq_ofSize, Prog.seq_memcpy, Prog.seq_pure, bind_assoc, pure_bind]
    rfl
  · rename_i h
    cases h1 : c.vs[i]? with
    | none => rfl
    | some v =>
      cases h2 : c.vs[j]? with
      | none => rfl
      | some o => exact (h v o h1 h2).elim

theorem TVecs.seq_moveAssign (c : TVecs) (i j : Nat) :
    (c.moveAssign sz i j).seq A s = Vecs.moveAssign sz ⟨s, c.vs, c.seen⟩ i j >>= fun c' => pure (c'.st, ⟨c'.vs, c'.seen⟩) := by
  unfold TVecs.moveAssign Vecs.moveAssign
  split
  · rename_i h1 h2
    simp only [h1, h2, Prog.seq_bind, Vec.seq_destroy, Prog.seq_pure, bind_assoc, pure_bind]
  · rename_i h
    cases h1 : c.vs[i]? with
    | none => rfl
    | some v =>
      cases h2 : c.vs[j]? with
      | none => rfl
      | some o => exact (h v o h1 h2).elim

theorem TVecs.seq_step (c : TVecs) (o : VOp) :
    (c.step sz o).seq A s = Vecs.step sz ⟨s, c.vs, c.seen⟩ o >>= fun c' => pure (c'.st, ⟨c'.vs, c'.seen⟩) := by
  cases o <;> simp only [TVecs.step, Vecs.step]
  case new => rfl
  case newSize n => simp only [Prog.seq_bind, Vec.seq_ofSize, Prog.seq_pure, bind_assoc, pure_bind]
  case newFill n x => split <;> simp only [Prog.seq_bind, Vec.seq_ofFill, Prog.seq_pure, bind_assoc, pure_bind]
  case newRange xs => split <;> simp only [Prog.seq_bind, Vec.seq_ofRange, Prog.seq_pure, bind_assoc, pure_bind]
  case copy j => cases c.vs[j]? <;> simp only [Prog.seq_bind, Vec.seq_copy, Prog.seq_pure, bind_assoc, pure_bind]
  case move j => cases c.vs[j]? <;> rfl
  case copyAssign i j =>
    split
    · rfl
    · exact TVecs.seq_copyAssign A s sz c i j
  case moveAssign i j => exact TVecs.seq_moveAssign A s sz c i j
  case destroy i => cases c.vs[i]? <;> simp only [Prog.seq_bind, Vec.seq_destroy, Prog.seq_pure, bind_assoc, pure_bind]
  case push i x =>
    cases c.vs[i]? with
    | none => rfl
    | some v => simp only; split <;> simp only [Prog.seq_bind, Vec.seq_pushBack, Prog.seq_readBytes, Prog.seq_pure, bind_assoc, pure_bind]
  case pushRange i xs =>
    cases c.vs[i]? with
    | none => rfl
    | some v => simp only; split <;> simp only [Prog.seq_bind, Vec.seq_pushRange, Prog.seq_readBytes, Prog.seq_pure, bind_assoc, pure_bind]
  case pushFrom i j a n =>
    cases c.vs[i]? with
    | none => rfl
    | some v =>
      cases c.vs[j]? with
      | none => rfl
      | some o => simp only; split <;> simp only [Prog.seq_bind, Vec.seq_pushRange, Prog.seq_readBytes, Prog.seq_pure, bind_assoc, pure_bind]
  case erase i k =>
    cases c.vs[i]? with
    | none => rfl
    | some v => simp only; split <;> simp only [Prog.seq_bind, Vec.seq_erase, Prog.seq_readBytes, Prog.seq_pure, bind_assoc, pure_bind]
  case eraseRange i a n =>
    cases c.vs[i]? with
    | none => rfl
    | some v => simp only; split <;> simp only [Prog.seq_bind, Vec.seq_eraseRange, Prog.seq_readBytes, Prog.seq_pure, bind_assoc, pure_bind]
  case resize i n => cases c.vs[i]? <;> simp only [Prog.seq_bind, Vec.seq_resize, Prog.seq_pure, bind_assoc, pure_bind]
  case reserve i n => cases c.vs[i]? <;> simp only [Prog.seq_bind, Vec.seq_reserve, Prog.seq_pure, bind_assoc, pure_bind]
  case clear i => cases c.vs[i]? <;> rfl
  case write i k x =>
    cases c.vs[i]? with
    | none => rfl
    | some v => simp only [Vec.write]; split <;> simp only [Prog.seq_bind, Prog.seq_writeBytes, Prog.seq_pure, bind_assoc, pure_bind]
  case read i k =>
    cases c.vs[i]? with
    | none => rfl
    | some v => simp only [Vec.read]; split <;> simp only [Prog.seq_bind, Prog.seq_readBytes, Prog.seq_pure, bind_assoc, pure_bind]

theorem TVecs.seq_run (c : TVecs) (ops : List VOp) :
    (c.run sz ops).seq A s = Vecs.run sz ⟨s, c.vs, c.seen⟩ ops >>= fun c' => pure (c'.st, ⟨c'.vs, c'.seen⟩) := by
  induction ops generalizing c s with
  | nil => rfl
  | cons o os ih =>
    simp only [TVecs.run, Vecs.run, Prog.seq_bind, TVecs.seq_step, bind_assoc, pure_bind, ih]

theorem TVecs.seq_destroyAll (vs : List Vec) : (TVecs.destroyAll sz vs).seq A s = Vecs.destroyAll sz s vs >>= fun s' => pure (s', ()) := by
  induction vs generalizing s with
  | nil => rfl
  | cons v vs ih => simp only [TVecs.destroyAll, Vecs.destroyAll, Prog.seq_bind, Vec.seq_destroy, bind_assoc, pure_bind, ih]

/-- By itself the thread is the program with vectors of `Containers/Vector.lean`. -/
theorem seq_vthread (ops : List VOp) : (vthread sz ops).seq A s = (do
    let c ← Vecs.run sz ⟨s, [], []⟩ ops
    let s' ← Vecs.destroyAll sz c.st c.vs
    pure (s', c.seen)) := by
  simp only [vthread, Prog.seq_bind, TVecs.seq_run, TVecs.seq_destroyAll, Prog.seq_pure, bind_assoc, pure_bind]

end

end KTL
