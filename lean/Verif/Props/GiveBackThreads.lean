import Verif.Props.GiveBack
import Verif.Props.Progress

/- C104 for several threads: giving memory back needs no memory. -/
namespace KTL

/-! ### Specification -/

/-- Whatever the program reads, it does not ask for memory any more. (`stop`: an unsuccessful request is behind it, and its null result is about to
be used.) -/
def Prog.Gives {α : Type} : Prog α → Prop
  | .ret _ => True
  | .stop => False
  | .ub => True
  | .load _ k => ∀ v, (k v).Gives
  | .store _ _ k => k.Gives
  | .alloc _ _ => False
  | .dealloc _ _ k => k.Gives

/-- No thread is inside `allocate`, and none is going to call it. -/
def Gang.Gives {X : BAlloc} {α : Type} (T : Gang X α) : Prop := ∀ i, match T.holds i with
  | none => (T.threads i).Gives
  | some (.giving _ k) => k.Gives
  | some (.taking _ _) => False

/-! ### Programs that only give back -/

namespace Prog.Gives
variable {α β : Type}

theorem pure (a : α) : (Pure.pure a : Prog α).Gives := trivial
theorem ub : (Prog.ub : Prog α).Gives := trivial
theorem bind {x : Prog α} {f : α → Prog β} (h : x.Gives) (hf : ∀ a, (f a).Gives) : (x >>= f).Gives := by
  show (x.bind f).Gives
  induction x with
  | ret a => exact hf a
  | stop => exact h
  | ub => trivial
  | load p k ih => exact fun v => ih v (h v)
  | store p v k ih => exact ih h
  | alloc n k ih => exact h
  | dealloc p n k ih => exact ih h
theorem readBytes (p n : Nat) : (Prog.readBytes p n).Gives := by
  induction n generalizing p with
  | zero => trivial
  | succ n ih => exact fun v => bind (ih _) fun _ => pure _
theorem writeBytes (p : Nat) (bs : List UInt8) : (Prog.writeBytes p bs).Gives := by
  induction bs generalizing p with
  | nil => trivial
  | cons x xs ih => exact ih _
theorem ungrab (sz p n : Nat) : (Prog.ungrab sz p n).Gives := trivial

/-- the lemmas known so far -/
syntax "gives_known" : tactic
macro_rules | `(tactic| gives_known) => `(tactic| first
  | with_reducible exact Prog.Gives.pure _ | with_reducible exact Prog.Gives.ub | with_reducible exact Prog.Gives.readBytes _ _
  | with_reducible exact Prog.Gives.writeBytes _ _ | with_reducible exact Prog.Gives.ungrab _ _ _)
/-- go through a program -/
syntax "gives" : tactic
macro_rules | `(tactic| gives) => `(tactic| repeat' first
  | gives_known | assumption | (with_reducible refine Prog.Gives.bind ?_ fun _ => ?_) | split)

theorem memmove (dst src n : Nat) : (Prog.memmove dst src n).Gives := by unfold Prog.memmove; gives
macro_rules | `(tactic| gives_known) => `(tactic| with_reducible exact Prog.Gives.memmove _ _ _)

theorem vdestroy (sz : Nat) (o : Vec) : (Vec.destroyP sz o).Gives := by unfold Vec.destroyP; gives
theorem verase (sz : Nat) (v : Vec) (n : Nat) : (Vec.eraseP sz v n).Gives := by unfold Vec.eraseP; gives
theorem veraseRange (sz : Nat) (v : Vec) (n l : Nat) : (Vec.eraseRangeP sz v n l).Gives := by unfold Vec.eraseRangeP; gives
macro_rules | `(tactic| gives_known) => `(tactic| first
  | with_reducible exact Prog.Gives.vdestroy _ _ | with_reducible exact Prog.Gives.verase _ _ _ | with_reducible exact Prog.Gives.veraseRange _ _ _ _)
theorem vmoveAssign (sz : Nat) (c : TVecs) (i j : Nat) : (c.moveAssign sz i j).Gives := by unfold TVecs.moveAssign; gives
macro_rules | `(tactic| gives_known) => `(tactic| with_reducible exact Prog.Gives.vmoveAssign _ _ _ _)
theorem vstep (sz : Nat) (c : TVecs) (o : VOp) (ho : o.needsNothing = true) : (c.step sz o).Gives := by
  cases o <;> first | (cases ho; done) | (simp only [TVecs.step]; gives)
theorem vrun (sz : Nat) (c : TVecs) (ops : List VOp) (ho : ∀ o ∈ ops, o.needsNothing = true) : (c.run sz ops).Gives := by
  induction ops generalizing c with
  | nil => trivial
  | cons o os ih => exact bind (vstep sz c o (ho o (by simp))) fun c' => ih c' fun o h => ho o (by simp [h])
theorem vdestroyAll (sz : Nat) (vs : List Vec) : (TVecs.destroyAll sz vs).Gives := by
  induction vs with
  | nil => trivial
  | cons v vs ih => exact bind (vdestroy sz v) fun _ => ih

theorem adestroy (sz : Nat) (o : Arr) : (Arr.destroyP sz o).Gives := by unfold Arr.destroyP; gives
macro_rules | `(tactic| gives_known) => `(tactic| with_reducible exact Prog.Gives.adestroy _ _)
theorem amoveAssign (sz : Nat) (c : TArrs) (i j : Nat) : (c.moveAssign sz i j).Gives := by unfold TArrs.moveAssign; gives
macro_rules | `(tactic| gives_known) => `(tactic| with_reducible exact Prog.Gives.amoveAssign _ _ _ _)
theorem astep (sz : Nat) (c : TArrs) (o : ArrOp) (ho : o.needsNothing = true) : (c.step sz o).Gives := by
  cases o <;> first | (cases ho; done) | (simp only [TArrs.step]; gives)
theorem arun (sz : Nat) (c : TArrs) (ops : List ArrOp) (ho : ∀ o ∈ ops, o.needsNothing = true) : (c.run sz ops).Gives := by
  induction ops generalizing c with
  | nil => trivial
  | cons o os ih => exact bind (astep sz c o (ho o (by simp))) fun c' => ih c' fun o h => ho o (by simp [h])
theorem adestroyAll (sz : Nat) (vs : List Arr) : (TArrs.destroyAll sz vs).Gives := by
  induction vs with
  | nil => trivial
  | cons v vs ih => exact bind (adestroy sz v) fun _ => ih

variable (E : Elt α) (o : Objs α) (comp eq : α → α → Bool)

theorem eltAt (p : Nat) : (E.atP o p).Gives := by unfold Elt.atP; gives
macro_rules | `(tactic| gives_known) => `(tactic| with_reducible exact Prog.Gives.eltAt _ _ _)
theorem eltRead (p : Nat) : (E.readP o p).Gives := by unfold Elt.readP; gives
macro_rules | `(tactic| gives_known) => `(tactic| with_reducible exact Prog.Gives.eltRead _ _ _)
theorem eltAssign (p : Nat) (v : α) : (E.assignP o p v).Gives := by unfold Elt.assignP; gives
theorem eltDestroy (p : Nat) : (E.destroyP o p).Gives := by unfold Elt.destroyP; gives
theorem eltDealloc (p n : Nat) : (E.deallocP o p n).Gives := by unfold Elt.deallocP; gives
macro_rules | `(tactic| gives_known) => `(tactic| first
  | with_reducible exact Prog.Gives.eltAssign _ _ _ _ | with_reducible exact Prog.Gives.eltDestroy _ _ _ | with_reducible exact Prog.Gives.eltDealloc _ _ _ _)
theorem eltMoveOut (p : Nat) : (E.moveOutP o p).Gives := by unfold Elt.moveOutP; gives
macro_rules | `(tactic| gives_known) => `(tactic| with_reducible exact Prog.Gives.eltMoveOut _ _ _)
theorem hdestroyLoop (beg i n : Nat) : (BHeap.destroyAllP E beg i n o).Gives := by
  induction n generalizing i o with
  | zero => trivial
  | succ n ih => exact bind (eltDestroy E o _) fun o' => ih o' _
macro_rules | `(tactic| gives_known) => `(tactic| with_reducible exact Prog.Gives.hdestroyLoop _ _ _ _ _)
theorem hdestroy (h : BHeap) : (h.destroyP E o).Gives := by unfold BHeap.destroyP; gives
theorem hbetter (beg size c child : Nat) : (BHeap.betterP E comp beg size o c child).Gives := by unfold BHeap.betterP; gives
theorem hdownLoop (beg size fuel parent : Nat) : (BHeap.downLoopP E comp beg size fuel parent o).Gives := by
  induction fuel generalizing parent o with
  | zero => trivial
  | succ n ih =>
    unfold BHeap.downLoopP
    split
    · refine bind (hbetter E o comp _ _ _ _) fun c => bind (hbetter E o comp _ _ _ _) fun child => ?_
      split
      · trivial
      · exact bind (eltMoveOut E _ _) fun t => bind (eltMoveOut E _ _) fun p => bind (eltAssign E _ _ _) fun o1 =>
          bind (eltAssign E _ _ _) fun o2 => ih o2 _
    · trivial
macro_rules | `(tactic| gives_known) => `(tactic| first
  | with_reducible exact Prog.Gives.hdestroy _ _ _ | with_reducible exact Prog.Gives.hdownLoop _ _ _ _ _ _ _)
theorem hpercolateDown (beg size index : Nat) : (BHeap.percolateDownP E comp beg size index o).Gives := by unfold BHeap.percolateDownP; gives
theorem hpeek (h : BHeap) : (h.peekP E o).Gives := eltRead E o _
theorem hmoveElem (dst src : Nat) : (BHeap.moveElemP E o dst src).Gives := by unfold BHeap.moveElemP; gives
macro_rules | `(tactic| gives_known) => `(tactic| first
  | with_reducible exact Prog.Gives.hpercolateDown _ _ _ _ _ _ | with_reducible exact Prog.Gives.hpeek _ _ _
  | with_reducible exact Prog.Gives.hmoveElem _ _ _ _)
theorem hpop (h : BHeap) : (h.popP E comp o).Gives := by unfold BHeap.popP; gives
theorem hfind (f : α → Bool) (beg i n : Nat) : (BHeap.findP E f o beg i n).Gives := by
  induction n generalizing i with
  | zero => trivial
  | succ n ih =>
    refine bind (eltRead E o _) fun x => ?_
    split
    · trivial
    · exact ih _
theorem hclear (h : BHeap) : (h.clearP E o).Gives := by unfold BHeap.clearP; gives
theorem hmoveAssign (c : THeaps α) (i j : Nat) : (c.moveAssign E i j).Gives := by unfold THeaps.moveAssign; gives
macro_rules | `(tactic| gives_known) => `(tactic| first
  | with_reducible exact Prog.Gives.hpop _ _ _ _ | with_reducible exact Prog.Gives.hfind _ _ _ _ _ _
  | with_reducible exact Prog.Gives.hclear _ _ _ | with_reducible exact Prog.Gives.hmoveAssign _ _ _ _)
theorem hstep (c : THeaps α) (op : BOp α) (ho : op.needsNothing = true) : (c.step E comp eq op).Gives := by
  cases op <;> first | (cases ho; done) | (simp only [THeaps.step]; gives)
theorem hrun (c : THeaps α) (ops : List (BOp α)) (ho : ∀ o ∈ ops, o.needsNothing = true) : (c.run E comp eq ops).Gives := by
  induction ops generalizing c with
  | nil => trivial
  | cons o os ih => exact bind (hstep E comp eq c o (ho o (by simp))) fun c' => ih c' fun o h => ho o (by simp [h])
theorem hdestroyAll (hs : List BHeap) : (THeaps.destroyAll E o hs).Gives := by
  induction hs generalizing o with
  | nil => trivial
  | cons h hs ih => exact bind (hdestroy E o h) fun o' => ih o'

end Prog.Gives

/-! ### Threads that only give back -/

theorem Frugal.bodyStep {α : Type} (sys : Sys) (x : Body true α) : Frugal (x.step sys) := by
  cases x with
  | ret a => exact Frugal.pure _
  | ub => exact Frugal.ub
  | null h => cases h
  | load p k => exact Frugal.bind (Frugal.load p) fun _ => Frugal.pure _
  | store p v k => exact Frugal.bind (Frugal.store p v) fun _ => Frugal.pure _
  | malloc h n k => cases h
  | free h p k => exact Frugal.bind (Frugal.cFree p) fun _ => Frugal.pure _
  | print h m k => exact Frugal.bind (Frugal.print m) fun _ => Frugal.pure _

namespace Gang
variable {X : BAlloc} {α : Type}

theorem Gives.put {T : Gang X α} (hT : T.Gives) {i : Nat} {p : Prog α} (hp : p.Gives) (hi : T.holds i = none) : (T.put i p).Gives := by
  intro j
  have hj := hT j
  have e : (T.put i p).holds j = T.holds j := rfl
  rw [e]
  by_cases hij : j = i
  · subst hij
    rw [hi]
    show Prog.Gives (if j = j then p else T.threads j)
    rw [if_pos rfl]; exact hp
  · cases hc : T.holds j with
    | none =>
      rw [hc] at hj
      show Prog.Gives (if j = i then p else T.threads j)
      rw [if_neg hij]; exact hj
    | some c =>
      rw [hc] at hj
      cases c with
      | taking x k => exact hj
      | giving x k => exact hj

theorem holds_some {T : Gang X α} {j : Nat} {c : Visit X α} (h : T.inside = some (j, c)) (i : Nat) : T.holds i = if j = i then some c else none := by
  unfold Gang.holds; rw [h]

theorem Gives.step {T : Gang X α} (hT : T.Gives) (sys : Sys) (i : Nat) (w : World) :
    FrugalAt w (T.step sys i w) ∧ ∀ T' w', T.step sys i w = .ok T' w' → T'.Gives := by
  have hi := hT i
  cases hh : T.holds i with
  | some c =>
    have hin := Gang.holds_self hh
    rw [hh] at hi
    have other : ∀ j, j ≠ i → (T.threads j).Gives := fun j hj => by
      have := hT j
      rw [Gang.holds_other hin hj] at this
      exact this
    cases c with
    | taking x k => exact hi.elim
    | giving x k =>
      cases ho : (Visit.giving x k : Visit X α).over with
      | some r =>
        rw [Gang.step_over hin ho]
        refine ⟨rfl, fun T' w' h => ?_⟩
        cases h
        intro j
        show Prog.Gives (if j = i then r.2 else T.threads j)
        by_cases hj : j = i
        · rw [if_pos hj]
          cases x <;> cases ho
          exact hi
        · rw [if_neg hj]; exact other j hj
      | none =>
        rw [Gang.step_inside hin ho]
        constructor
        · exact Frugal.bind (Frugal.bind (Frugal.bodyStep sys x) fun _ => Frugal.pure _) (fun _ => Frugal.pure _) w
        · intro T' w' h
          obtain ⟨c', w1, h1, h2⟩ := bind_ok h
          cases h2
          obtain ⟨x', w2, _, h4⟩ := bind_ok (show (x.step sys >>= fun x' => Pure.pure (Visit.giving x' k) : M (Visit X α)) w = .ok c' w' from h1)
          cases h4
          intro j
          rw [holds_some (c := .giving x' k) rfl]
          by_cases hj : i = j
          · rw [if_pos hj]; exact hi
          · rw [if_neg hj]; exact other j (Ne.symm hj)
  | none =>
    rw [hh] at hi
    have hstep : T.step sys i = match T.threads i with
      | .ret _ => Pure.pure T
      | .stop => M.oom
      | .ub => M.ub
      | .load p k => do
        let v ← M.load p
        Pure.pure (T.put i (k v))
      | .store p v k => do
        M.store p v
        Pure.pure (T.put i k)
      | .alloc n k => if T.inside.isSome then Pure.pure T else Pure.pure { T with inside := some (i, .taking (X.alloc T.st n) k) }
      | .dealloc p n k => if T.inside.isSome then Pure.pure T else Pure.pure { T with inside := some (i, .giving (X.dealloc T.st p n) k) } := by
      unfold Gang.step; rw [hh]; rfl
    rw [hstep]
    cases hp : T.threads i with
    | ret a => exact ⟨rfl, fun T' w' h => by cases h; exact hT⟩
    | stop => rw [hp] at hi; exact hi.elim
    | ub => exact ⟨trivial, fun T' w' h => by cases h⟩
    | load p k =>
      rw [hp] at hi
      refine ⟨Frugal.bind (Frugal.load p) (fun _ => Frugal.pure _) w, fun T' w' h => ?_⟩
      obtain ⟨v, w1, _, h2⟩ := bind_ok h
      cases h2
      exact hT.put (hi v) hh
    | store p v k =>
      rw [hp] at hi
      refine ⟨Frugal.bind (Frugal.store p v) (fun _ => Frugal.pure _) w, fun T' w' h => ?_⟩
      obtain ⟨_, w1, _, h2⟩ := bind_ok h
      cases h2
      exact hT.put hi hh
    | alloc n k => rw [hp] at hi; exact hi.elim
    | dealloc p n k =>
      rw [hp] at hi
      dsimp only
      cases hin : T.inside with
      | some x => exact ⟨rfl, fun T' w' h => by cases h; exact hT⟩
      | none =>
        refine ⟨rfl, fun T' w' h => ?_⟩
        cases h
        intro j
        rw [holds_some (c := .giving (X.dealloc T.st p n) k) rfl]
        by_cases hj : i = j
        · rw [if_pos hj]; exact hi
        · rw [if_neg hj]
          have := hT j
          have e : T.holds j = none := by unfold Gang.holds; rw [hin]
          rw [e] at this
          exact this

theorem Gives.run {T : Gang X α} (hT : T.Gives) (sys : Sys) (is : List Nat) : Frugal (T.run sys is) ∧
    ∀ w T' w', T.run sys is w = .ok T' w' → T'.Gives := by
  induction is generalizing T with
  | nil => exact ⟨Frugal.pure _, fun w T' w' h => by cases h; exact hT⟩
  | cons i is ih =>
    constructor
    · intro w
      show FrugalAt w ((T.step sys i >>= fun T' => T'.run sys is) w)
      obtain ⟨h1, h2⟩ := hT.step sys i w
      rw [M.bind_apply]
      cases hs : T.step sys i w with
      | ok T1 w1 =>
        rw [hs] at h1
        have h3 := (ih (h2 T1 w1 hs)).1 w1
        show FrugalAt w (T1.run sys is w1)
        cases hr : T1.run sys is w1 with
        | ok T2 w2 => rw [hr] at h3; exact Eq.trans h3 h1
        | oom w2 => rw [hr] at h3; exact h3
        | ub => trivial
      | oom w1 => rw [hs] at h1; exact h1
      | ub => trivial
    · intro w T' w' h
      obtain ⟨T1, w1, h1, h2⟩ := bind_ok (show (T.step sys i >>= fun T' => T'.run sys is) w = .ok T' w' from h)
      exact (ih ((hT.step sys i w).2 T1 w1 h1)).2 w1 T' w' h2

/-- A step of one thread leaves what the others are going to do as it is. -/
theorem step_keeps {sys : Sys} {T T' : Gang X α} {i j : Nat} {w w' : World} (hij : j ≠ i) (h : T.step sys i w = .ok T' w') :
    T'.threads j = T.threads j := by
  have hput : ∀ p, (T.put i p).threads j = T.threads j := fun p => if_neg hij
  unfold Gang.step at h
  cases hh : T.holds i with
  | some c =>
    rw [hh] at h
    dsimp only at h
    cases ho : c.over with
    | some r => rw [ho] at h; cases h; exact hput _
    | none =>
      rw [ho] at h
      obtain ⟨c', w1, _, h2⟩ := bind_ok h
      cases h2; rfl
  | none =>
    rw [hh] at h
    dsimp only at h
    cases hp : T.threads i with
    | ret a => rw [hp] at h; cases h; rfl
    | stop => rw [hp] at h; cases h
    | ub => rw [hp] at h; cases h
    | load p k =>
      rw [hp] at h
      obtain ⟨v, w1, _, h2⟩ := bind_ok h
      cases h2; exact hput _
    | store p v k =>
      rw [hp] at h
      obtain ⟨_, w1, _, h2⟩ := bind_ok h
      cases h2; exact hput _
    | alloc n k =>
      rw [hp] at h
      dsimp only at h
      by_cases hi : T.inside.isSome = true
      · rw [if_pos hi] at h; cases h; rfl
      · rw [if_neg hi] at h; cases h; rfl
    | dealloc p n k =>
      rw [hp] at h
      dsimp only at h
      by_cases hi : T.inside.isSome = true
      · rw [if_pos hi] at h; cases h; rfl
      · rw [if_neg hi] at h; cases h; rfl

theorem run_keeps {sys : Sys} {T T' : Gang X α} {is : List Nat} {j : Nat} {w w' : World} (hj : j ∉ is) (h : T.run sys is w = .ok T' w') :
    T'.threads j = T.threads j := by
  induction is generalizing T w with
  | nil => cases h; rfl
  | cons i is ih =>
    obtain ⟨T1, w1, h1, h2⟩ := bind_ok (show (T.step sys i >>= fun T' => T'.run sys is) w = .ok T' w' from h)
    rw [ih (fun hm => hj (by simp [hm])) h2]
    exact step_keeps (fun e => hj (by simp [e])) h1

end Gang

/-! ### The property -/

/-- **C104, what threads do in the end.** Whatever vectors, arrays or heaps a thread has: while it makes calls that only remove or move (`needsNothing`)
and then destroys its containers, it does not ask for memory. -/
theorem C104_thread_ends {α : Type} (sz : Nat) (E : Elt α) (comp eq : α → α → Bool) (v : TVecs) (a : TArrs) (h : THeaps α)
    (vops : List VOp) (aops : List ArrOp) (hops : List (BOp α)) (hv : ∀ o ∈ vops, o.needsNothing = true) (ha : ∀ o ∈ aops, o.needsNothing = true)
    (hh : ∀ o ∈ hops, o.needsNothing = true) :
    (do
      let c ← v.run sz vops
      TVecs.destroyAll sz c.vs
      pure c.seen : Prog (List (List UInt8))).Gives ∧
    (do
      let c ← a.run sz aops
      TArrs.destroyAll sz c.vs
      pure c.seen : Prog (List (List UInt8))).Gives ∧
    (do
      let c ← h.run E comp eq hops
      let _ ← THeaps.destroyAll E c.objs c.hs
      pure (c.seen.map (HObs.bytes E)) : Prog (List (List UInt8))).Gives :=
  ⟨Prog.Gives.bind (Prog.Gives.vrun sz v vops hv) fun _ => Prog.Gives.bind (Prog.Gives.vdestroyAll sz _) fun _ => Prog.Gives.pure _,
   Prog.Gives.bind (Prog.Gives.arun sz a aops ha) fun _ => Prog.Gives.bind (Prog.Gives.adestroyAll sz _) fun _ => Prog.Gives.pure _,
   Prog.Gives.bind (Prog.Gives.hrun E comp eq h hops hh) fun _ => Prog.Gives.bind (Prog.Gives.hdestroyAll E _ _) fun _ => Prog.Gives.pure _⟩

/-- **C104, threads.** Any number of threads share one `threaded` allocator. Once none of them is in a call of `allocate` or going to make one, they go
on, in whatever order, without a single call of `malloc`: also when there is no memory left at all. -/
theorem C104_threads (sys : Sys) (t : AllocTy) (hwf : t.WF) (hst : t.stepwise = true) (hlock : t.takesMutex = true) (b : Nat) (w : World)
    (hs : Storage w b t.size) (jobs : Nat → Job) (hj : ∀ i, (jobs i).Sane t) (sched : List Nat)
    (T : Gang (t.denoteB sys.plat) (List (List UInt8))) (w1 : World)
    (hrun : gangPlay (t.denoteB sys.plat) sys b (fun i => (jobs i).prog) sched w = .ok T w1) (hT : T.Gives) (later : List Nat) :
    ∃ T2 w2, T.run sys later w1 = .ok T2 w2 ∧ w2.tick = w1.tick := by
  have key := C84_threads_inside_calls sys t hwf hst hlock b w hs jobs hj (sched ++ later)
  have e2 : gangPlay (t.denoteB sys.plat) sys b (fun i => (jobs i).prog) (sched ++ later) w = T.run sys later w1 := by
    obtain ⟨s, w0, h1, h2⟩ := bind_ok hrun
    exact (bind_of_ok h1).trans (Gang.run_append h2)
  rw [e2] at key
  have hf := (hT.run sys later).1 w1
  cases hr : T.run sys later w1 with
  | ok T2 w2 => rw [hr] at hf; exact ⟨T2, w2, rfl, hf⟩
  | oom w2 => rw [hr] at hf; exact hf.elim
  | ub => rw [hr] at key; exact key.elim

/-- **C104, threads finish.** From such a moment on all `m` threads finish with the right results without a call of `malloc`, if they are scheduled in
any way that lets none of them wait for its next turn for ever. -/
theorem C104_threads_finish (sys : Sys) (t : AllocTy) (hwf : t.WF) (hst : t.stepwise = true) (hlock : t.takesMutex = true) (b : Nat) (w : World)
    (hs : Storage w b t.size) (jobs : Nat → Job) (hj : ∀ i, (jobs i).Sane t) (sched : List Nat)
    (T : Gang (t.denoteB sys.plat) (List (List UInt8))) (w1 : World)
    (hrun : gangPlay (t.denoteB sys.plat) sys b (fun i => (jobs i).prog) sched w = .ok T w1) (hT : T.Gives) (m : Nat)
    (hin : ∀ j, (T.holds j).isSome = true → j < m) (turn : Nat → Nat) (hm : ∀ k, turn k < m)
    (hfair : ∀ i, i < m → ∀ k, ∃ k', k ≤ k' ∧ turn k' = i) :
    ∃ N T2 w2, T.run sys ((List.range N).map turn) w1 = .ok T2 w2 ∧ w2.tick = w1.tick ∧ T2.inside.isNone = true ∧
      ∀ i, i < m → ∃ xs, T2.threads i = .ret xs ∧ (jobs i).Sees xs := by
  obtain ⟨N, hN⟩ := Gang.finish_fair sys turn hm
    (fun i hi k => by obtain ⟨k', h1, h2⟩ := hfair i hi k; exact ⟨k' - k, by rw [← h2]; congr 1; omega⟩)
    T (fun j c h => hin j (by rw [Gang.holds_inside h]; rfl)) w1 0
  obtain ⟨T2, w2, hr, ht⟩ := C104_threads sys t hwf hst hlock b w hs jobs hj sched T w1 hrun hT ((List.range N).map turn)
  obtain ⟨h1, h2⟩ := hN T2 w2 (by rw [← hr]; congr 2; funext d; rw [Nat.zero_add])
  refine ⟨N, T2, w2, hr, ht, by rw [h1]; rfl, fun i hi => ?_⟩
  obtain ⟨xs, hx⟩ := h2 i hi
  have key := C84_threads_inside_calls sys t hwf hst hlock b w hs jobs hj (sched ++ (List.range N).map turn)
  have e2 : gangPlay (t.denoteB sys.plat) sys b (fun i => (jobs i).prog) (sched ++ (List.range N).map turn) w =
      T.run sys ((List.range N).map turn) w1 := by
    obtain ⟨s, w0, h1, h2⟩ := bind_ok hrun
    exact (bind_of_ok h1).trans (Gang.run_append h2)
  rw [e2, hr] at key
  exact ⟨xs, hx, key.1 i xs hx⟩

/-! ### Concrete instances -/

/-- Two threads, each with a vector. -/
def giveJobs (i : Nat) : Job := if i = 0 then .vectors 1 [.newFill 1 [7]] else if i = 1 then .vectors 1 [.newFill 2 [9], .erase 0 0] else .vectors 1 []

/-- the end of the schedule: thread 1 has its memory, and has erased an element; thread 0 is inside `deallocate` (helper) -/
def giveSched : List Nat := List.replicate 136 1 ++ List.replicate 150 0

example : ∀ i, (giveJobs i).Sane gangTy := by
  intro i
  unfold giveJobs
  split
  · exact ⟨by decide, by decide, fun _ => rfl⟩
  split
  · exact ⟨by decide, by decide, fun _ => rfl⟩
  · exact ⟨by decide, by decide, fun _ => rfl⟩

/-- Thread 0 is inside `deallocate`, thread 1 is about to call it, the others have nothing to do; `malloc` has been called twice. -/
example : ∃ T w1, gangPlay (gangTy.denoteB .direct) (demoSys .direct) 4096 (fun i => (giveJobs i).prog) giveSched (demoWorld gangTy.size) = .ok T w1 ∧
    T.Gives ∧ (T.holds 0).isSome = true ∧ (∀ j, (T.holds j).isSome = true → j < 2) ∧ w1.tick = 2 := by
  have h : (gangPlay (gangTy.denoteB .direct) (demoSys .direct) 4096 (fun i => (giveJobs i).prog) giveSched (demoWorld gangTy.size)).test
      (fun T w => (match T.inside, T.threads 1 with
        | some (0, .giving _ (.ret _)), .dealloc _ _ (.ret _) => true
        | _, _ => false) && w.tick == 2) = true := by decide +kernel
  cases hr : gangPlay (gangTy.denoteB .direct) (demoSys .direct) 4096 (fun i => (giveJobs i).prog) giveSched (demoWorld gangTy.size) with
  | oom w1 => rw [hr] at h; cases h
  | ub => rw [hr] at h; cases h
  | ok T w1 =>
    rw [hr] at h
    have h : ((match T.inside, T.threads 1 with
        | some (0, .giving _ (.ret _)), .dealloc _ _ (.ret _) => true
        | _, _ => false) && w1.tick == 2) = true := h
    rw [Bool.and_eq_true] at h
    obtain ⟨h, ht⟩ := h
    have hrest : ∀ i, 2 ≤ i → (T.threads i).Gives := by
      intro i hi
      obtain ⟨s, w0, _, h2⟩ := bind_ok hr
      rw [Gang.run_keeps (j := i) (fun hm => by
        rcases List.mem_append.1 hm with hm | hm <;> (have := List.eq_of_mem_replicate hm; omega)) h2]
      show (giveJobs i).prog.Gives
      unfold giveJobs
      rw [if_neg (by omega), if_neg (by omega)]
      trivial
    split at h
    · rename_i e1 e2
      refine ⟨T, w1, rfl, fun i => ?_, by unfold Gang.holds; rw [e1]; rfl, fun j hj => ?_, by simpa using ht⟩
      · rw [Gang.holds_some e1]
        by_cases h0 : 0 = i
        · rw [if_pos h0]; trivial
        · rw [if_neg h0]
          by_cases h1 : i = 1
          · subst h1; dsimp only; rw [e2]; trivial
          · exact hrest i (by omega)
      · rw [Gang.holds_some e1] at hj
        by_cases h0 : 0 = j
        · omega
        · rw [if_neg h0] at hj; cases hj
    · cases h

end KTL
