import Verif.Props.Vector
import Verif.Props.Array
import Verif.Props.BinaryHeap

/- C104: giving memory back needs no memory. -/
namespace KTL

/-! ### Specification -/

/-- What is done calls `malloc` not once (`tick` counts the calls) and does not come to a stop for want of memory. -/
def FrugalAt {α : Type} (w : World) (r : Res α) : Prop := match r with
  | .ok _ w' => w'.tick = w.tick
  | .oom _ => False
  | .ub => True

/-- The same from every state of memory. -/
def Frugal {α : Type} (c : M α) : Prop := ∀ w, FrugalAt w (c w)

/-- the calls on vectors that give memory back, remove elements, move whole vectors, or only read and write elements -/
def VOp.needsNothing : VOp → Bool
  | .new | .move _ | .moveAssign _ _ | .destroy _ | .erase _ _ | .eraseRange _ _ _ | .clear _ | .write _ _ _ | .read _ _ => true
  | _ => false

/-- the same for arrays -/
def ArrOp.needsNothing : ArrOp → Bool
  | .new | .move _ | .moveAssign _ _ | .destroy _ | .write _ _ _ | .read _ _ => true
  | _ => false

/-- the same for heaps -/
def BOp.needsNothing {α : Type} : BOp α → Bool
  | .new | .move _ | .moveAssign _ _ | .destroy _ | .pop _ | .peek _ | .find _ _ | .clear _ => true
  | _ => false

/-! ### Allocators -/

namespace Frugal
variable {α β : Type}

theorem pure (a : α) : Frugal (Pure.pure a : M α) := fun _ => rfl
theorem ub : Frugal (M.ub : M α) := fun _ => trivial
theorem bind {c : M α} {f : α → M β} (h : Frugal c) (hf : ∀ a, Frugal (f a)) : Frugal (c >>= f) := by
  intro w
  rw [M.bind_apply]
  have h1 := h w
  cases e : c w with
  | ok a w' =>
    rw [e] at h1
    have h2 := hf a w'
    show match f a w' with | .ok _ w2 => _ | .oom _ => _ | .ub => _
    cases e2 : f a w' with
    | ok b w2 => rw [e2] at h2; exact Eq.trans h2 h1
    | oom w2 => rw [e2] at h2; exact h2
    | ub => trivial
  | oom w' => rw [e] at h1; exact h1
  | ub => trivial
theorem ite {c : Prop} [Decidable c] {x y : M α} (h1 : Frugal x) (h2 : Frugal y) : Frugal (if c then x else y) := by
  split
  · exact h1
  · exact h2
theorem load (p : Nat) : Frugal (M.load p) := by
  intro w; unfold M.load; cases w.heap.b p <;> trivial
theorem store (p : Nat) (v : UInt8) : Frugal (M.store p v) := by
  intro w; unfold M.store; cases w.heap.b p <;> trivial
theorem print (m : Msg) : Frugal (M.print m) := fun _ => rfl
theorem ifThen {c : Prop} [Decidable c] {x : M Unit} (h : Frugal x) : Frugal (M.ifThen c x) := ite h (pure _)
theorem readBytes (p n : Nat) : Frugal (M.readBytes p n) := by
  induction n generalizing p with
  | zero => exact pure _
  | succ n ih => exact bind (load p) fun _ => bind (ih _) fun _ => pure _
theorem writeBytes (p : Nat) (bs : List UInt8) : Frugal (M.writeBytes p bs) := by
  induction bs generalizing p with
  | nil => exact pure _
  | cons b bs ih => exact bind (store p b) fun _ => ih _
theorem readPtr (p : Nat) : Frugal (M.readPtr p) := bind (readBytes _ _) fun _ => pure _
theorem writePtr (p v : Nat) : Frugal (M.writePtr p v) := writeBytes _ _
theorem memmove (d s n : Nat) : Frugal (M.memmove d s n) := bind (readBytes _ _) fun _ => writeBytes _ _
theorem cFree (p : Nat) : Frugal (cFree p) := by
  intro w
  unfold KTL.cFree
  by_cases h : p = 0
  · rw [if_pos h]; rfl
  · rw [if_neg h]
    cases w.heap.t p with
    | none => trivial
    | some n =>
      dsimp only
      by_cases h2 : w.heap.hasBytes p n = true
      · rw [if_pos h2]; rfl
      · rw [if_neg h2]; trivial
theorem alignedFree (sys : Sys) (p : Nat) : Frugal (alignedFree sys p) := by
  unfold KTL.alignedFree
  split
  · exact cFree _
  · exact ite (bind (readPtr _) fun _ => cFree _) (pure _)
theorem alignedDelete (sys : Sys) (p : Nat) {d : M Unit} (h : Frugal d) : Frugal (alignedDelete sys p d) := bind h fun _ => alignedFree _ _
theorem scanBefore (p k r cur : Nat) : Frugal (Overflow.scanBefore p k r cur) := by
  induction r generalizing k cur with
  | zero => exact pure _
  | succ r ih => exact bind (load _) fun _ => ih _ _
theorem scanAfter (p k r cur : Nat) : Frugal (Overflow.scanAfter p k r cur) := by
  induction r generalizing k cur with
  | zero => exact pure _
  | succ r ih => exact bind (load _) fun _ => ih _ _

open Lean.Order in
theorem release {A : Allocator} (h : ∀ s p n, Frugal (A.dealloc s p n)) (Max : Nat) (s : A.St) (next : Nat) : Frugal (Freelist.release A Max s next) := by
  suffices ∀ s next w, FrugalAt w (Freelist.release A Max s next w) from fun w => this s next w
  refine Freelist.release.fixpoint_induct A Max (fun r => ∀ s next w, FrugalAt w (r s next w)) ?_ ?_
  · refine admissible_pi_apply (fun s (r : Nat → M A.St) => ∀ next w, FrugalAt w (r next w)) (fun s => ?_)
    refine admissible_pi_apply (fun next (r : M A.St) => ∀ w, FrugalAt w (r w)) (fun next => ?_)
    have key := admissible_pi_apply (fun (w : World) (r : Res A.St) => FrugalAt w r) (fun w => admissible_flatOrder (b := Res.ub) _ trivial)
    exact key
  · intro r ih s next
    show Frugal (if next ≠ 0 then do
      let nx ← M.readPtr next
      let s' ← A.dealloc s next Max
      r s' nx
    else Pure.pure s)
    exact ite (bind (readPtr _) fun nx => bind (h _ _ _) fun s' => ih s' nx) (pure _)

end Frugal

theorem frugal_dealloc (sys : Sys) (t : AllocTy) :
    (∀ (s : (t.denote sys).St) p n, Frugal ((t.denote sys).dealloc s p n)) ∧ ∀ s : (t.denote sys).St, Frugal ((t.denote sys).fini s) := by
  induction t with
  | null => exact ⟨fun _ _ _ => Frugal.pure _, fun _ => Frugal.pure _⟩
  | mallocator => exact ⟨fun _ _ _ => Frugal.alignedFree _ _, fun _ => Frugal.pure _⟩
  | linear S => exact ⟨fun _ _ _ => Frugal.pure _, fun _ => Frugal.pure _⟩
  | stack S => exact ⟨fun _ _ _ => Frugal.pure _, fun _ => Frugal.pure _⟩
  | freelist m M A ih =>
    exact ⟨fun _ _ _ => Frugal.ite (Frugal.bind (Frugal.writePtr _ _) fun _ => Frugal.pure _) (Frugal.pure _),
      fun _ => Frugal.bind (Frugal.release ih.1 _ _ _) fun _ => ih.2 _⟩
  | fallback P F ihP ihF =>
    exact ⟨fun _ _ _ => Frugal.ite (Frugal.bind (ihP.1 _ _ _) fun _ => Frugal.pure _) (Frugal.bind (ihF.1 _ _ _) fun _ => Frugal.pure _),
      fun _ => Frugal.bind (ihF.2 _) fun _ => ihP.2 _⟩
  | segragator T P F ihP ihF =>
    exact ⟨fun _ _ _ => Frugal.ite (Frugal.bind (ihP.1 _ _ _) fun _ => Frugal.pure _) (Frugal.bind (ihF.1 _ _ _) fun _ => Frugal.pure _),
      fun _ => Frugal.bind (ihF.2 _) fun _ => ihP.2 _⟩
  | cascading A ih =>
    refine ⟨fun s p n => ?_, fun s => ?_⟩
    · show Frugal (Cascading.dealloc sys (A.denote sys) p n false s)
      generalize false = prev
      induction s generalizing prev with
      | nil => exact Frugal.pure _
      | cons nd s ih' =>
        exact Frugal.ite (Frugal.bind (ih.1 _ _ _) fun _ => Frugal.ite (Frugal.bind (Frugal.alignedDelete _ _ (ih.2 _)) fun _ => Frugal.pure _)
          (Frugal.pure _)) (Frugal.bind (ih' true) fun _ => Frugal.pure _)
    · show Frugal (Cascading.release sys (A.denote sys) s)
      induction s with
      | nil => exact Frugal.pure _
      | cons nd s ih' => exact Frugal.bind (Frugal.alignedDelete _ _ (ih.2 _)) fun _ => ih'
  | overflow A ih =>
    exact ⟨fun _ _ _ => Frugal.ite (Frugal.bind (Frugal.scanBefore _ _ _ _) fun _ => Frugal.bind (Frugal.scanAfter _ _ _ _) fun _ =>
        Frugal.bind (Frugal.ifThen (Frugal.print _)) fun _ => Frugal.bind (ih.1 _ _ _) fun _ => Frugal.pure _) (Frugal.pure _),
      fun _ => Frugal.bind (Frugal.ifThen (Frugal.print _)) fun _ => Frugal.bind (Frugal.ifThen (Frugal.print _)) fun _ => ih.2 _⟩
  | threaded A ih => exact ih
  | shared A ih => exact ⟨fun _ _ _ => Frugal.bind (ih.1 _ _ _) fun _ => Frugal.pure _, fun _ => Frugal.alignedDelete _ _ (ih.2 _)⟩
  | reference A ih => exact ih

/-! ### Containers -/

namespace Frugal
variable {A : Allocator}

theorem vecDestroy (h : ∀ s p n, Frugal (A.dealloc s p n)) (sz : Nat) (s : A.St) (v : Vec) : Frugal (v.destroy sz A s) :=
  ite (h _ _ _) (pure _)

theorem vecStep (h : ∀ s p n, Frugal (A.dealloc s p n)) (sz : Nat) (c : Vecs A) (o : VOp) (ho : o.needsNothing = true) : Frugal (c.step sz o) := by
  cases o <;> first | (cases ho; done) | skip
  case new => exact pure _
  case move j => simp only [Vecs.step]; split <;> exact pure _
  case moveAssign i j =>
    show Frugal (c.moveAssign sz i j)
    unfold Vecs.moveAssign
    split
    · exact bind (vecDestroy h _ _ _) fun _ => pure _
    · exact pure _
  case destroy i =>
    simp only [Vecs.step]
    split
    · exact bind (vecDestroy h _ _ _) fun _ => pure _
    · exact pure _
  case erase i k =>
    simp only [Vecs.step]
    split
    · exact ite (bind (bind (memmove _ _ _) fun _ => pure _) fun _ => bind (readBytes _ _) fun _ => pure _) (pure _)
    · exact pure _
  case eraseRange i a n =>
    simp only [Vecs.step]
    split
    · exact ite (bind (bind (memmove _ _ _) fun _ => pure _) fun _ => bind (readBytes _ _) fun _ => pure _) (pure _)
    · exact pure _
  case clear i => simp only [Vecs.step]; split <;> exact pure _
  case write i k x =>
    simp only [Vecs.step]
    split
    · exact ite (bind (writeBytes _ _) fun _ => pure _) (pure _)
    · exact pure _
  case read i k =>
    simp only [Vecs.step]
    split
    · exact ite (bind (readBytes _ _) fun _ => pure _) (pure _)
    · exact pure _

theorem vecRun (h : ∀ s p n, Frugal (A.dealloc s p n)) (sz : Nat) (ops : List VOp) (ho : ∀ o ∈ ops, o.needsNothing = true) (c : Vecs A) :
    Frugal (c.run sz ops) := by
  induction ops generalizing c with
  | nil => exact pure _
  | cons o os ih => exact bind (vecStep h sz c o (ho o (by simp))) fun c' => ih (fun o ho' => ho o (by simp [ho'])) c'

theorem vecsDestroy (h : ∀ s p n, Frugal (A.dealloc s p n)) (sz : Nat) (vs : List Vec) (s : A.St) : Frugal (Vecs.destroyAll sz s vs) := by
  induction vs generalizing s with
  | nil => exact pure _
  | cons v vs ih => exact bind (vecDestroy h _ _ _) fun s' => ih s'

theorem arrDestroy (h : ∀ s p n, Frugal (A.dealloc s p n)) (sz : Nat) (s : A.St) (v : Arr) : Frugal (v.destroy sz A s) :=
  ite (h _ _ _) (pure _)

theorem arrStep (h : ∀ s p n, Frugal (A.dealloc s p n)) (sz : Nat) (c : Arrs A) (o : ArrOp) (ho : o.needsNothing = true) : Frugal (c.step sz o) := by
  cases o <;> first | (cases ho; done) | skip
  case new => exact pure _
  case move j => simp only [Arrs.step]; split <;> exact pure _
  case moveAssign i j =>
    show Frugal (c.moveAssign sz i j)
    unfold Arrs.moveAssign
    split
    · exact bind (arrDestroy h _ _ _) fun _ => pure _
    · exact pure _
  case destroy i =>
    simp only [Arrs.step]
    split
    · exact bind (arrDestroy h _ _ _) fun _ => pure _
    · exact pure _
  case write i k x =>
    simp only [Arrs.step]
    split
    · exact ite (bind (writeBytes _ _) fun _ => pure _) (pure _)
    · exact pure _
  case read i k =>
    simp only [Arrs.step]
    split
    · exact ite (bind (readBytes _ _) fun _ => pure _) (pure _)
    · exact pure _

theorem arrRun (h : ∀ s p n, Frugal (A.dealloc s p n)) (sz : Nat) (ops : List ArrOp) (ho : ∀ o ∈ ops, o.needsNothing = true) (c : Arrs A) :
    Frugal (c.run sz ops) := by
  induction ops generalizing c with
  | nil => exact pure _
  | cons o os ih => exact bind (arrStep h sz c o (ho o (by simp))) fun c' => ih (fun o ho' => ho o (by simp [ho'])) c'

theorem arrsDestroy (h : ∀ s p n, Frugal (A.dealloc s p n)) (sz : Nat) (vs : List Arr) (s : A.St) : Frugal (Arrs.destroyAll sz s vs) := by
  induction vs generalizing s with
  | nil => exact pure _
  | cons v vs ih => exact bind (arrDestroy h _ _ _) fun s' => ih s'

variable {α : Type} (E : Elt α)

theorem eltAt (o : Objs α) (p : Nat) : Frugal (E.at o p) := by
  refine bind (readBytes _ _) fun bs => ?_
  split
  · exact ite (pure _) ub
  · exact ub
theorem eltRead (o : Objs α) (p : Nat) : Frugal (E.read o p) := bind (eltAt E o p) fun _ => pure _
theorem eltAssign (o : Objs α) (p : Nat) (v : α) : Frugal (E.assign o p v) := bind (eltAt E o p) fun _ => bind (writeBytes _ _) fun _ => pure _
theorem eltMoveOut (o : Objs α) (p : Nat) : Frugal (E.moveOut o p) := bind (eltRead E o p) fun _ => bind (eltAssign E _ _ _) fun _ => pure _
theorem eltDestroy (o : Objs α) (p : Nat) : Frugal (E.destroy o p) := bind (eltAt E o p) fun _ => ite (pure _) ub
theorem eltDealloc (h : ∀ s p n, Frugal (A.dealloc s p n)) (s : A.St) (o : Objs α) (p n : Nat) : Frugal (E.dealloc A s o p n) := by
  unfold Elt.dealloc
  split
  · exact ub
  · exact bind (h _ _ _) fun _ => pure _

theorem heapDestroyAll (beg i n : Nat) (o : Objs α) : Frugal (BHeap.destroyAll E beg i n o) := by
  induction n generalizing i o with
  | zero => exact pure _
  | succ n ih => exact bind (eltDestroy E _ _) fun _ => ih _ _

theorem heapDestroy (h : ∀ s p n, Frugal (A.dealloc s p n)) (s : A.St) (o : Objs α) (g : BHeap) : Frugal (g.destroy E A s o) :=
  ite (bind (heapDestroyAll E _ _ _ _) fun _ => eltDealloc E h _ _ _ _) (pure _)

theorem heapBetter (comp : α → α → Bool) (beg size : Nat) (o : Objs α) (c child : Nat) : Frugal (BHeap.better E comp beg size o c child) :=
  ite (bind (eltRead E _ _) fun _ => bind (eltRead E _ _) fun _ => pure _) (pure _)

theorem heapDownLoop (comp : α → α → Bool) (beg size fuel parent : Nat) (o : Objs α) : Frugal (BHeap.downLoop E comp beg size fuel parent o) := by
  induction fuel generalizing parent o with
  | zero => exact ub
  | succ n ih =>
    exact ite (bind (heapBetter E _ _ _ _ _ _) fun _ => bind (heapBetter E _ _ _ _ _ _) fun _ => ite (pure _)
      (bind (eltMoveOut E _ _) fun _ => bind (eltMoveOut E _ _) fun _ => bind (eltAssign E _ _ _) fun _ => bind (eltAssign E _ _ _) fun _ => ih _ _))
      (pure _)

theorem heapPop (comp : α → α → Bool) (o : Objs α) (g : BHeap) : Frugal (g.pop E comp o) :=
  bind (eltRead E _ _) fun _ => bind (ite (bind (eltRead E _ _) fun _ => eltAssign E _ _ _) (bind (eltMoveOut E _ _) fun _ => eltAssign E _ _ _)) fun _ =>
    bind (eltDestroy E _ _) fun _ => bind (bind (eltRead E _ _) fun _ => bind (heapDownLoop E _ _ _ _ _ _) fun _ => eltAssign E _ _ _) fun _ => pure _

theorem heapFind (eq : α → Bool) (o : Objs α) (beg i n : Nat) : Frugal (BHeap.find E eq o beg i n) := by
  induction n generalizing i with
  | zero => exact pure _
  | succ n ih => exact bind (eltRead E _ _) fun _ => ite (pure _) (ih _)

theorem heapStep (h : ∀ s p n, Frugal (A.dealloc s p n)) (comp eq : α → α → Bool) (c : BHeaps A α) (o : BOp α) (ho : o.needsNothing = true) :
    Frugal (c.step E comp eq o) := by
  cases o <;> first | (cases ho; done) | skip
  case new => exact pure _
  case move j => simp only [BHeaps.step]; split <;> exact pure _
  case moveAssign i j =>
    show Frugal (c.moveAssign E i j)
    unfold BHeaps.moveAssign
    split
    · exact bind (heapDestroy E h _ _ _) fun _ => pure _
    · exact pure _
  case destroy i =>
    simp only [BHeaps.step]
    split
    · exact bind (heapDestroy E h _ _ _) fun _ => pure _
    · exact pure _
  case pop i =>
    simp only [BHeaps.step]
    split
    · exact ite (bind (heapPop E _ _ _) fun _ => pure _) (pure _)
    · exact pure _
  case peek i =>
    simp only [BHeaps.step]
    split
    · exact ite (bind (eltRead E _ _) fun _ => pure _) (pure _)
    · exact pure _
  case find i v =>
    simp only [BHeaps.step]
    split
    · exact bind (heapFind E _ _ _ _ _) fun _ => pure _
    · exact pure _
  case clear i =>
    simp only [BHeaps.step]
    split
    · exact bind (bind (heapDestroyAll E _ _ _ _) fun _ => pure _) fun _ => pure _
    · exact pure _

theorem heapRun (h : ∀ s p n, Frugal (A.dealloc s p n)) (comp eq : α → α → Bool) (ops : List (BOp α)) (ho : ∀ o ∈ ops, o.needsNothing = true)
    (c : BHeaps A α) : Frugal (c.run E comp eq ops) := by
  induction ops generalizing c with
  | nil => exact pure _
  | cons o os ih => exact bind (heapStep E h comp eq c o (ho o (by simp))) fun c' => ih (fun o ho' => ho o (by simp [ho'])) c'

theorem heapsDestroy (h : ∀ s p n, Frugal (A.dealloc s p n)) (hs : List BHeap) (s : A.St) (o : Objs α) : Frugal (BHeaps.destroyAll E s o hs) := by
  induction hs generalizing s o with
  | nil => exact pure _
  | cons v vs ih => exact bind (heapDestroy E h _ _ _) fun x => ih x.1 x.2

end Frugal

/-! ### Programs that go on -/

theorem Vecs.run_append_of (sz : Nat) {A : Allocator} (a b : List VOp) (c : Vecs A) : c.run sz (a ++ b) = c.run sz a >>= fun c' => c'.run sz b := by
  induction a generalizing c with
  | nil => exact (pure_bind _ _).symm
  | cons o os ih =>
    show (c.step sz o >>= fun c' => c'.run sz (os ++ b)) = (c.step sz o >>= fun c' => c'.run sz os) >>= _
    rw [bind_assoc]
    exact congrArg _ (funext fun c' => ih c')

theorem Arrs.run_append_of (sz : Nat) {A : Allocator} (a b : List ArrOp) (c : Arrs A) : c.run sz (a ++ b) = c.run sz a >>= fun c' => c'.run sz b := by
  induction a generalizing c with
  | nil => exact (pure_bind _ _).symm
  | cons o os ih =>
    show (c.step sz o >>= fun c' => c'.run sz (os ++ b)) = (c.step sz o >>= fun c' => c'.run sz os) >>= _
    rw [bind_assoc]
    exact congrArg _ (funext fun c' => ih c')

theorem BHeaps.run_append_of {α : Type} (E : Elt α) (comp eq : α → α → Bool) {A : Allocator} (a b : List (BOp α)) (c : BHeaps A α) :
    c.run E comp eq (a ++ b) = c.run E comp eq a >>= fun c' => c'.run E comp eq b := by
  induction a generalizing c with
  | nil => exact (pure_bind _ _).symm
  | cons o os ih =>
    show (c.step E comp eq o >>= fun c' => c'.run E comp eq (os ++ b)) = (c.step E comp eq o >>= fun c' => c'.run E comp eq os) >>= _
    rw [bind_assoc]
    exact congrArg _ (funext fun c' => ih c')

/-- what is needed of the rest of a program that has got so far -/
theorem frugal_rest {α β : Type} {c : M α} {f : α → M β} {w w1 : World} {a : α} (h : c w = .ok a w1) (hf : Frugal (f a))
    (hu : (c >>= f) w ≠ .ub) : ∃ b w2, f a w1 = .ok b w2 ∧ w2.tick = w1.tick := by
  rw [bind_of_ok h] at hu
  have := hf w1
  cases e : f a w1 with
  | ok b w2 => rw [e] at this; exact ⟨b, w2, rfl, this⟩
  | oom w2 => rw [e] at this; exact this.elim
  | ub => exact (hu e).elim

/-! ### The property -/

/-- **C104, `deallocate` and the destructor.** Whatever the state of the allocator and of memory, they do not call `malloc` and do not stop for want
of memory. -/
theorem C104_deallocate_needs_no_memory (sys : Sys) (t : AllocTy) (s : (t.denote sys).St) (p n : Nat) (w : World) :
    (∀ s' w', (t.denote sys).dealloc s p n w = .ok s' w' → w'.tick = w.tick) ∧ (∀ w', (t.denote sys).dealloc s p n w ≠ .oom w') ∧
    (∀ u w', (t.denote sys).fini s w = .ok u w' → w'.tick = w.tick) ∧ ∀ w', (t.denote sys).fini s w ≠ .oom w' := by
  have h1 := (frugal_dealloc sys t).1 s p n w
  have h2 := (frugal_dealloc sys t).2 s w
  refine ⟨fun s' w' e => ?_, fun w' e => ?_, fun u w' e => ?_, fun w' e => ?_⟩
  · rw [e] at h1; exact h1
  · rw [e] at h1; exact h1
  · rw [e] at h2; exact h2
  · rw [e] at h2; exact h2

/-- **C104, vectors.** After any program with vectors, any calls that only remove or move (`rel`), then the destruction of all vectors and of the
allocator, succeed without a single call of `malloc`: also when there is no memory left at all. -/
theorem C104_vectors (sys : Sys) (t : AllocTy) (hwf : t.WF) (b : Nat) (w : World) (hs : Storage w b t.size) (sz : Nat) (hz : 0 < sz)
    (ops rel : List VOp) (hops : VSane t sz (ops ++ rel)) (hrel : ∀ o ∈ rel, o.needsNothing = true) (c : Vecs (t.denote sys)) (w1 : World)
    (hrun : vplay sz (t.denote sys) b ops w = .ok c w1) :
    ∃ u w2, (do
      let c' ← c.run sz rel
      let s ← Vecs.destroyAll sz c'.st c'.vs
      (t.denote sys).fini s : M Unit) w1 = .ok u w2 ∧ w2.tick = w1.tick := by
  obtain ⟨h0, hf, hd, he, hb, hfb, hft⟩ := storage_split hs
  have hfit := hops.fits hwf hz sys.plat
  have := vlife_spec (t.sound sys hwf) b sz hz (ops ++ rel) hfit.1 hfit.2 hs.1 hs.2.1 (by rw [t.objSize_eq]; exact hs.2.2.1) w h0 hf hd he
    (by rw [t.objSize_eq]; exact hb)
  have hd := frugal_dealloc sys t
  refine frugal_rest (f := fun c : Vecs (t.denote sys) => (do
      let c' ← c.run sz rel
      let s ← Vecs.destroyAll sz c'.st c'.vs
      (t.denote sys).fini s : M Unit)) hrun
    (Frugal.bind (Frugal.vecRun hd.1 sz rel hrel c) fun c' => Frugal.bind (Frugal.vecsDestroy hd.1 sz c'.vs c'.st) fun s => hd.2 s) ?_
  intro e
  have e2 : vlife sz (t.denote sys) b (ops ++ rel) w = .ub := by
    rw [← e]
    unfold vlife vplay
    simp only [Vecs.run_append_of, bind_assoc]
  rw [e2] at this
  exact this

/-- **C104, arrays.** -/
theorem C104_arrays (sys : Sys) (t : AllocTy) (hwf : t.WF) (b : Nat) (w : World) (hs : Storage w b t.size) (sz : Nat) (hz : 0 < sz)
    (ops rel : List ArrOp) (hops : ASane t sz (ops ++ rel)) (hrel : ∀ o ∈ rel, o.needsNothing = true) (c : Arrs (t.denote sys)) (w1 : World)
    (hrun : aplay sz (t.denote sys) b ops w = .ok c w1) :
    ∃ u w2, (do
      let c' ← c.run sz rel
      let s ← Arrs.destroyAll sz c'.st c'.vs
      (t.denote sys).fini s : M Unit) w1 = .ok u w2 ∧ w2.tick = w1.tick := by
  obtain ⟨h0, hf, hd, he, hb, hfb, hft⟩ := storage_split hs
  have hfit := hops.fits hwf hz sys.plat
  have := alife_spec (t.sound sys hwf) b sz hz (ops ++ rel) hfit.1 hfit.2 hs.1 hs.2.1 (by rw [t.objSize_eq]; exact hs.2.2.1) w h0 hf hd he
    (by rw [t.objSize_eq]; exact hb)
  have hd := frugal_dealloc sys t
  refine frugal_rest (f := fun c : Arrs (t.denote sys) => (do
      let c' ← c.run sz rel
      let s ← Arrs.destroyAll sz c'.st c'.vs
      (t.denote sys).fini s : M Unit)) hrun
    (Frugal.bind (Frugal.arrRun hd.1 sz rel hrel c) fun c' => Frugal.bind (Frugal.arrsDestroy hd.1 sz c'.vs c'.st) fun s => hd.2 s) ?_
  intro e
  have e2 : alife sz (t.denote sys) b (ops ++ rel) w = .ub := by
    rw [← e]
    unfold alife aplay
    simp only [Arrs.run_append_of, bind_assoc]
  rw [e2] at this
  exact this

/-- **C104, heaps.** As for vectors; `pop` is among the calls that need no memory. (Popping the last element of a heap of a non-trivial type is
undefined, C56.) -/
theorem C104_heaps {α : Type} (sys : Sys) (t : AllocTy) (hwf : t.WF) (b : Nat) (w : World) (hs : Storage w b t.size)
    (E : Elt α) (hE : E.Ok) (comp eq : α → α → Bool) (ops rel : List (BOp α)) (hops : HSane t E (ops ++ rel))
    (hpop : E.trivial = true ∨ popsLast [] (ops ++ rel) = false) (hrel : ∀ o ∈ rel, o.needsNothing = true) (c : BHeaps (t.denote sys) α) (w1 : World)
    (hrun : hplay E comp eq (t.denote sys) b ops w = .ok c w1) :
    ∃ u w2, (do
      let c' ← c.run E comp eq rel
      let x ← BHeaps.destroyAll E c'.st c'.objs c'.hs
      (t.denote sys).fini x.1 : M Unit) w1 = .ok u w2 ∧ w2.tick = w1.tick := by
  obtain ⟨h0, hf, hd, he, hb, hfb, hft⟩ := storage_split hs
  have hfit := hops.fits hwf hE sys.plat
  have := hlife_spec (t.sound sys hwf) b hE comp eq (ops ++ rel) hfit.1 hfit.2 hpop hs.1 hs.2.1 (by rw [t.objSize_eq]; exact hs.2.2.1) w h0 hf hd he
    (by rw [t.objSize_eq]; exact hb)
  have hd := frugal_dealloc sys t
  refine frugal_rest (f := fun c : BHeaps (t.denote sys) α => (do
      let c' ← c.run E comp eq rel
      let x ← BHeaps.destroyAll E c'.st c'.objs c'.hs
      (t.denote sys).fini x.1 : M Unit)) hrun
    (Frugal.bind (Frugal.heapRun E hd.1 comp eq rel hrel c) fun c' => Frugal.bind (Frugal.heapsDestroy E hd.1 c'.hs c'.st c'.objs) fun x => hd.2 x.1) ?_
  intro e
  have e2 : hlife E comp eq (t.denote sys) b (ops ++ rel) w = .ub := by
    have : hlife E comp eq (t.denote sys) b (ops ++ rel) = (hplay E comp eq (t.denote sys) b ops >>= fun c => c.run E comp eq rel >>= fun c' =>
        BHeaps.destroyAll E c'.st c'.objs c'.hs >>= fun x => (t.denote sys).fini x.1 >>= fun _ => pure x.2) := by
      unfold hlife hplay
      simp only [BHeaps.run_append_of, bind_assoc]
    rw [this, bind_of_ok hrun]
    rw [bind_of_ok hrun] at e
    simp only [M.bind_apply] at e ⊢
    cases e1 : c.run E comp eq rel w1 with
    | ok c' w2 =>
      rw [e1] at e
      dsimp only at e ⊢
      cases e2 : BHeaps.destroyAll E c'.st c'.objs c'.hs w2 with
      | ok x w3 => rw [e2] at e; dsimp only at e ⊢; rw [e]
      | oom w3 => rw [e2] at e; cases e
      | ub => rfl
    | oom w2 => rw [e1] at e; cases e
    | ub => rfl
  rw [e2] at this
  exact this

/-! ### Concrete instances -/

/-- vectors: one is moved over another one, an element is erased, one is destroyed; over an allocator with four layers -/
example : VSane demoTy 8 ([.newRange [[1, 2, 3, 4, 5, 6, 7, 8]], .new, .push 1 [1, 2, 3, 4, 5, 6, 7, 8]] ++ [.moveAssign 0 1, .erase 0 0, .destroy 1]) ∧
    ∀ o ∈ ([.moveAssign 0 1, .erase 0 0, .destroy 1] : List VOp), o.needsNothing = true := by
  refine ⟨⟨by decide, ?_⟩, by decide⟩
  rintro ⟨o, ho, h⟩
  revert h
  simp only [List.cons_append, List.nil_append, List.mem_cons, List.not_mem_nil, or_false] at ho
  rcases ho with rfl | rfl | rfl | rfl | rfl | rfl <;> decide

/-- the first half runs, and calls `malloc` twice -/
example : ((vplay 8 (mallocator (demoSys .direct)) 4096 [.newRange [[1, 2, 3, 4, 5, 6, 7, 8]], .new, .push 1 [1, 2, 3, 4, 5, 6, 7, 8]] (demoWorld 0)).test
    fun c w => decide (c.vs.map (fun v => v.size 8) = [1, 1] ∧ w.tick = 2)) = true := by decide +kernel

/-- arrays -/
example : ASane demoTy 4 ([.newRange [[1, 2, 3, 4], [5, 6, 7, 8]], .resize 0 3] ++ [.move 0, .write 1 0 [0, 0, 0, 1], .destroy 0]) ∧
    ∀ o ∈ ([.move 0, .write 1 0 [0, 0, 0, 1], .destroy 0] : List ArrOp), o.needsNothing = true := by
  refine ⟨⟨by decide, ?_⟩, by decide⟩
  rintro ⟨o, ho, h⟩
  revert h
  simp only [List.cons_append, List.nil_append, List.mem_cons, List.not_mem_nil, or_false] at ho
  rcases ho with rfl | rfl | rfl | rfl | rfl <;> decide

/-- heaps: sorting what is in one, once it has been filled, needs no memory -/
example : HSane .mallocator demoByte ([.newList [5, 3, 9, 1, 5]] ++ List.replicate 5 (.pop 0)) ∧ demoByte.trivial = true ∧
    ∀ o ∈ List.replicate 5 (BOp.pop (α := UInt8) 0), o.needsNothing = true := ⟨⟨by decide, fun _ => rfl⟩, rfl, by decide⟩
/-- elements with a destructor -/
example : HSane .mallocator demoElt ([.newList [5, 3, 9]] ++ [.pop 0, .move 0, .clear 1]) ∧
    popsLast [] ([.newList [5, 3, 9]] ++ [.pop 0, .move 0, .clear 1] : List (BOp UInt8)) = false ∧
    ∀ o ∈ ([.pop 0, .move 0, .clear 1] : List (BOp UInt8)), o.needsNothing = true := ⟨⟨by decide, fun _ => rfl⟩, by decide, by decide⟩

/-- Calls outside the list do need memory: here `push_back` calls `malloc`. -/
example : ((vplay 8 (mallocator (demoSys .direct)) 4096 [.new] >>= fun c => c.step 8 (.push 0 [1, 2, 3, 4, 5, 6, 7, 8])) (demoWorld 0)).test
    (fun _ w => decide (w.tick = 1)) = true := by decide +kernel

end KTL
