import Verif.Conc.ProgArray
import Verif.Conc.ProgHeap

/- Programs with containers stop only because a request was refused. Proof machinery for C100. -/
namespace KTL

/-- The program does not stop unless its last request was answered with null. Proof helper, not code. -/
def Prog.Steady {α : Type} : Prog α → Prop
  | .ret _ => True
  | .stop => False
  | .ub => True
  | .load _ k => ∀ v, (k v).Steady
  | .store _ _ k => k.Steady
  | .alloc _ k => (k 0 = .stop ∨ (k 0).Steady) ∧ ∀ p, p ≠ 0 → (k p).Steady
  | .dealloc _ _ k => k.Steady

namespace Prog.Steady
variable {α β : Type}

theorem pure (a : α) : (Pure.pure a : Prog α).Steady := trivial

theorem bind {x : Prog α} {f : α → Prog β} (h : x.Steady) (hf : ∀ a, (f a).Steady) : (x >>= f).Steady := by
  show (x.bind f).Steady
  induction x with
  | ret a => exact hf a
  | stop => exact h.elim
  | ub => trivial
  | load p k ih => exact fun v => ih v (h v)
  | store p v k ih => exact ih h
  | alloc n k ih =>
    refine ⟨h.1.imp (fun e => ?_) (ih 0), fun p hp => ih p (h.2 p hp)⟩
    show (k 0).bind f = .stop
    rw [e]; rfl
  | dealloc p n k ih => exact ih h

theorem ub : (Prog.ub : Prog α).Steady := trivial

theorem readBytes (p n : Nat) : (Prog.readBytes p n).Steady := by
  induction n generalizing p with
  | zero => trivial
  | succ n ih => exact fun v => bind (ih _) fun _ => trivial

theorem writeBytes (p : Nat) (bs : List UInt8) : (Prog.writeBytes p bs).Steady := by
  induction bs generalizing p with
  | nil => trivial
  | cons x xs ih => exact ih _

theorem grab (sz n : Nat) : (Prog.grab sz n).Steady := by
  refine ⟨?_, fun p hp => ?_⟩
  · by_cases h : n ≠ 0
    · exact .inl (if_pos ⟨rfl, h⟩)
    · right
      show (if 0 = 0 ∧ n ≠ 0 then Prog.stop else Prog.ret 0).Steady
      rw [if_neg fun e => h e.2]; trivial
  · show (if p = 0 ∧ n ≠ 0 then Prog.stop else Prog.ret p).Steady
    rw [if_neg fun h => hp h.1]; trivial

theorem ungrab (sz p n : Nat) : (Prog.ungrab sz p n).Steady := trivial

/-- the lemmas known so far -/
syntax "steady_known" : tactic
macro_rules | `(tactic| steady_known) => `(tactic| first
  | with_reducible exact Prog.Steady.pure _ | with_reducible exact Prog.Steady.ub | with_reducible exact Prog.Steady.readBytes _ _ | with_reducible exact Prog.Steady.writeBytes _ _
  | with_reducible exact Prog.Steady.grab _ _ | with_reducible exact Prog.Steady.ungrab _ _ _)
/-- go through a program -/
macro "steady" : tactic => `(tactic| repeat' first
  | steady_known | assumption | (with_reducible refine Prog.Steady.bind ?_ fun _ => ?_) | split)

theorem memmove (dst src n : Nat) : (Prog.memmove dst src n).Steady := by unfold Prog.memmove; steady
macro_rules | `(tactic| steady_known) => `(tactic| with_reducible exact Prog.Steady.memmove _ _ _)
theorem memcpy (dst src n : Nat) : (Prog.memcpy dst src n).Steady := by unfold Prog.memcpy; steady
macro_rules | `(tactic| steady_known) => `(tactic| with_reducible exact Prog.Steady.memcpy _ _ _)

/-! ### Vectors -/

theorem fetch (n : Nat) (x : Arg) : (x.fetchP n).Steady := by cases x <;> (unfold Arg.fetchP; steady)
macro_rules | `(tactic| steady_known) => `(tactic| with_reducible exact Prog.Steady.fetch _ _)
theorem argCopy (dst n : Nat) (x : Arg) : (x.copyP dst n).Steady := by cases x <;> (unfold Arg.copyP; steady)
macro_rules | `(tactic| steady_known) => `(tactic| with_reducible exact Prog.Steady.argCopy _ _ _)
theorem vofSize (sz n : Nat) : (Vec.ofSizeP sz n).Steady := by unfold Vec.ofSizeP; steady
macro_rules | `(tactic| steady_known) => `(tactic| with_reducible exact Prog.Steady.vofSize _ _)
theorem vofFill (sz n : Nat) (x : Arg) : (Vec.ofFillP sz n x).Steady := by unfold Vec.ofFillP; steady
theorem vofRange (sz n : Nat) (x : Arg) : (Vec.ofRangeP sz n x).Steady := by unfold Vec.ofRangeP; steady
theorem vcopy (sz : Nat) (o : Vec) : (Vec.copyP sz o).Steady := by unfold Vec.copyP; steady
theorem vdestroy (sz : Nat) (o : Vec) : (Vec.destroyP sz o).Steady := by unfold Vec.destroyP; steady
theorem vsetSize (sz : Nat) (v : Vec) (n : Nat) : (Vec.setSizeP sz v n).Steady := by unfold Vec.setSizeP; steady
theorem vexpand (sz : Nat) (v : Vec) (n : Nat) : (Vec.expandP sz v n).Steady := vsetSize _ _ _
macro_rules | `(tactic| steady_known) => `(tactic| first
  | with_reducible exact Prog.Steady.vofFill _ _ _ | with_reducible exact Prog.Steady.vofRange _ _ _
  | with_reducible exact Prog.Steady.vcopy _ _ | with_reducible exact Prog.Steady.vdestroy _ _ | with_reducible exact Prog.Steady.vsetSize _ _ _ | with_reducible exact Prog.Steady.vexpand _ _ _)
theorem vresize (sz : Nat) (v : Vec) (n : Nat) : (Vec.resizeP sz v n).Steady := by unfold Vec.resizeP; steady
theorem vreserve (sz : Nat) (v : Vec) (n : Nat) : (Vec.reserveP sz v n).Steady := by unfold Vec.reserveP; steady
theorem vpush (sz : Nat) (v : Vec) (x : Arg) : (Vec.pushBackP sz v x).Steady := by unfold Vec.pushBackP; steady
theorem vpushRange (sz : Nat) (v : Vec) (n : Nat) (x : Arg) : (Vec.pushRangeP sz v n x).Steady := by unfold Vec.pushRangeP; steady
theorem verase (sz : Nat) (v : Vec) (n : Nat) : (Vec.eraseP sz v n).Steady := by unfold Vec.eraseP; steady
theorem veraseRange (sz : Nat) (v : Vec) (n m : Nat) : (Vec.eraseRangeP sz v n m).Steady := by unfold Vec.eraseRangeP; steady
macro_rules | `(tactic| steady_known) => `(tactic| first
  | with_reducible exact Prog.Steady.vresize _ _ _ | with_reducible exact Prog.Steady.vreserve _ _ _
  | with_reducible exact Prog.Steady.vpush _ _ _ | with_reducible exact Prog.Steady.vpushRange _ _ _ _ | with_reducible exact Prog.Steady.verase _ _ _ | with_reducible exact Prog.Steady.veraseRange _ _ _ _)
theorem vcopyAssign (sz : Nat) (c : TVecs) (i j : Nat) : (c.copyAssign sz i j).Steady := by unfold TVecs.copyAssign; steady
theorem vmoveAssign (sz : Nat) (c : TVecs) (i j : Nat) : (c.moveAssign sz i j).Steady := by unfold TVecs.moveAssign; steady
macro_rules | `(tactic| steady_known) => `(tactic| first
  | with_reducible exact Prog.Steady.vcopyAssign _ _ _ _ | with_reducible exact Prog.Steady.vmoveAssign _ _ _ _)
theorem vstep (sz : Nat) (c : TVecs) (o : VOp) : (c.step sz o).Steady := by cases o <;> (simp only [TVecs.step]; steady)
theorem vrun (sz : Nat) (c : TVecs) (ops : List VOp) : (c.run sz ops).Steady := by
  induction ops generalizing c with
  | nil => trivial
  | cons o os ih => exact bind (vstep sz c o) fun c' => ih c'
theorem vdestroyAll (sz : Nat) (vs : List Vec) : (TVecs.destroyAll sz vs).Steady := by
  induction vs with
  | nil => trivial
  | cons v vs ih => exact bind (vdestroy sz v) fun _ => ih
theorem vthread (sz : Nat) (ops : List VOp) : (KTL.vthread sz ops).Steady :=
  bind (vrun sz _ ops) fun _ => bind (vdestroyAll sz _) fun _ => trivial

/-! ### Arrays -/

theorem aofSize (sz n : Nat) : (Arr.ofSizeP sz n).Steady := by unfold Arr.ofSizeP; steady
macro_rules | `(tactic| steady_known) => `(tactic| with_reducible exact Prog.Steady.aofSize _ _)
theorem aofFill (sz n : Nat) (x : Arg) : (Arr.ofFillP sz n x).Steady := by unfold Arr.ofFillP; steady
theorem aofRange (sz n : Nat) (x : Arg) : (Arr.ofRangeP sz n x).Steady := by unfold Arr.ofRangeP; steady
theorem acopy (sz : Nat) (o : Arr) : (Arr.copyP sz o).Steady := by unfold Arr.copyP; steady
theorem adestroy (sz : Nat) (o : Arr) : (Arr.destroyP sz o).Steady := by unfold Arr.destroyP; steady
macro_rules | `(tactic| steady_known) => `(tactic| first
  | with_reducible exact Prog.Steady.aofFill _ _ _ | with_reducible exact Prog.Steady.aofRange _ _ _
  | with_reducible exact Prog.Steady.acopy _ _ | with_reducible exact Prog.Steady.adestroy _ _)
theorem aresize (sz : Nat) (v : Arr) (n : Nat) : (Arr.resizeP sz v n).Steady := by unfold Arr.resizeP; steady
theorem aassignRoom (sz : Nat) (v : Arr) (n : Nat) : (Arr.assignRoomP sz v n).Steady := by unfold Arr.assignRoomP; steady
macro_rules | `(tactic| steady_known) => `(tactic| first
  | with_reducible exact Prog.Steady.aresize _ _ _ | with_reducible exact Prog.Steady.aassignRoom _ _ _)
theorem aassign (sz : Nat) (v : Arr) (n : Nat) (x : Arg) : (Arr.assignP sz v n x).Steady := by unfold Arr.assignP; steady
theorem acopyAssign (sz : Nat) (c : TArrs) (i j : Nat) : (c.copyAssign sz i j).Steady := by unfold TArrs.copyAssign; steady
theorem amoveAssign (sz : Nat) (c : TArrs) (i j : Nat) : (c.moveAssign sz i j).Steady := by unfold TArrs.moveAssign; steady
macro_rules | `(tactic| steady_known) => `(tactic| first
  | with_reducible exact Prog.Steady.aassign _ _ _ _ | with_reducible exact Prog.Steady.acopyAssign _ _ _ _
  | with_reducible exact Prog.Steady.amoveAssign _ _ _ _)
theorem astep (sz : Nat) (c : TArrs) (o : ArrOp) : (c.step sz o).Steady := by cases o <;> (simp only [TArrs.step]; steady)
theorem arun (sz : Nat) (c : TArrs) (ops : List ArrOp) : (c.run sz ops).Steady := by
  induction ops generalizing c with
  | nil => trivial
  | cons o os ih => exact bind (astep sz c o) fun c' => ih c'
theorem adestroyAll (sz : Nat) (vs : List Arr) : (TArrs.destroyAll sz vs).Steady := by
  induction vs with
  | nil => trivial
  | cons v vs ih => exact bind (adestroy sz v) fun _ => ih
theorem athread (sz : Nat) (ops : List ArrOp) : (KTL.athread sz ops).Steady :=
  bind (arun sz _ ops) fun _ => bind (adestroyAll sz _) fun _ => trivial

/-! ### Heaps -/
variable (E : Elt α) (o : Objs α) (comp eq : α → α → Bool)

theorem eltAt (p : Nat) : (E.atP o p).Steady := by unfold Elt.atP; steady
macro_rules | `(tactic| steady_known) => `(tactic| with_reducible exact Prog.Steady.eltAt _ _ _)
theorem eltRead (p : Nat) : (E.readP o p).Steady := by unfold Elt.readP; steady
macro_rules | `(tactic| steady_known) => `(tactic| with_reducible exact Prog.Steady.eltRead _ _ _)
theorem eltConstruct (p : Nat) (v : α) : (E.constructP o p v).Steady := by unfold Elt.constructP; steady
theorem eltAssign (p : Nat) (v : α) : (E.assignP o p v).Steady := by unfold Elt.assignP; steady
theorem eltDestroy (p : Nat) : (E.destroyP o p).Steady := by unfold Elt.destroyP; steady
theorem eltDealloc (p n : Nat) : (E.deallocP o p n).Steady := by unfold Elt.deallocP; steady
theorem hfetch (x : HArg α) : (x.fetchP E o).Steady := by cases x <;> (unfold HArg.fetchP; steady)
macro_rules | `(tactic| steady_known) => `(tactic| first
  | with_reducible exact Prog.Steady.eltConstruct _ _ _ _ | with_reducible exact Prog.Steady.eltAssign _ _ _ _
  | with_reducible exact Prog.Steady.eltDestroy _ _ _ | with_reducible exact Prog.Steady.eltDealloc _ _ _ _ | with_reducible exact Prog.Steady.hfetch _ _ _)
theorem eltMoveOut (p : Nat) : (E.moveOutP o p).Steady := by unfold Elt.moveOutP; steady
macro_rules | `(tactic| steady_known) => `(tactic| with_reducible exact Prog.Steady.eltMoveOut _ _ _)
theorem hofCap (n : Nat) : (BHeap.ofCapP E n).Steady := by unfold BHeap.ofCapP; steady
theorem hdestroyLoop (beg i n : Nat) : (BHeap.destroyAllP E beg i n o).Steady := by
  induction n generalizing i o with
  | zero => trivial
  | succ n ih => exact bind (eltDestroy E o _) fun o' => ih o' _
theorem hcopyLoop (dst src i n : Nat) : (BHeap.copyAllP E dst src i n o).Steady := by
  induction n generalizing i o with
  | zero => trivial
  | succ n ih => exact bind (eltRead E o _) fun v => bind (eltConstruct E o _ v) fun o' => ih o' _
theorem hmoveLoop (dst src i n : Nat) : (BHeap.moveAllP E dst src i n o).Steady := by
  induction n generalizing i o with
  | zero => trivial
  | succ n ih => exact bind (eltMoveOut E o _) fun r => bind (eltConstruct E _ _ _) fun o' => ih o' _
macro_rules | `(tactic| steady_known) => `(tactic| first
  | with_reducible exact Prog.Steady.hofCap _ _ | with_reducible exact Prog.Steady.hdestroyLoop _ _ _ _ _
  | with_reducible exact Prog.Steady.hcopyLoop _ _ _ _ _ _ | with_reducible exact Prog.Steady.hmoveLoop _ _ _ _ _ _)
theorem hdestroy (h : BHeap) : (h.destroyP E o).Steady := by unfold BHeap.destroyP; steady
theorem hcopy (h : BHeap) : (h.copyP E o).Steady := by unfold BHeap.copyP; steady
theorem hsetSize (h : BHeap) (n : Nat) : (h.setSizeP E o n).Steady := by unfold BHeap.setSizeP; steady
theorem hexpand (h : BHeap) (n : Nat) : (h.expandP E o n).Steady := hsetSize _ _ _ _
macro_rules | `(tactic| steady_known) => `(tactic| first
  | with_reducible exact Prog.Steady.hdestroy _ _ _ | with_reducible exact Prog.Steady.hcopy _ _ _
  | with_reducible exact Prog.Steady.hsetSize _ _ _ _ | with_reducible exact Prog.Steady.hexpand _ _ _ _)
theorem hreserve (h : BHeap) (n : Nat) : (h.reserveP E o n).Steady := by unfold BHeap.reserveP; steady
theorem hupLoop (beg : Nat) (value : α) (index : Nat) : (BHeap.upLoopP E comp beg value index o).Steady := by
  induction index using Nat.strongRecOn generalizing o with
  | _ index ih =>
    unfold BHeap.upLoopP
    split
    · refine bind (eltRead E o _) fun pv => ?_
      split
      · exact bind (eltMoveOut E o _) fun r => bind (eltAssign E _ _ _) fun o' => ih _ (by omega) o'
      · trivial
    · trivial
macro_rules | `(tactic| steady_known) => `(tactic| first
  | with_reducible exact Prog.Steady.hreserve _ _ _ _ | with_reducible exact Prog.Steady.hupLoop _ _ _ _ _ _)
theorem hpercolateUp (beg index : Nat) : (BHeap.percolateUpP E comp beg index o).Steady := by unfold BHeap.percolateUpP; steady
theorem hbetter (beg size c child : Nat) : (BHeap.betterP E comp beg size o c child).Steady := by unfold BHeap.betterP; steady
theorem hdownLoop (beg size fuel parent : Nat) : (BHeap.downLoopP E comp beg size fuel parent o).Steady := by
  induction fuel generalizing parent o with
  | zero => trivial
  | succ n ih =>
    unfold BHeap.downLoopP
    split
    · refine bind (hbetter E o comp _ _ _ _) fun c => bind (hbetter E o comp _ _ _ _) fun child => ?_
      split
      · trivial
      · exact bind (eltMoveOut E _ _) fun t => bind (eltMoveOut E _ _) fun p => bind (eltAssign E _ _ _) fun o1 =>
          bind (eltAssign E _ _ _) fun o2 => ih o2 _
    · trivial
macro_rules | `(tactic| steady_known) => `(tactic| first
  | with_reducible exact Prog.Steady.hpercolateUp _ _ _ _ _ | with_reducible exact Prog.Steady.hdownLoop _ _ _ _ _ _ _)
theorem hpercolateDown (beg size index : Nat) : (BHeap.percolateDownP E comp beg size index o).Steady := by unfold BHeap.percolateDownP; steady
theorem hinsert (h : BHeap) (x : HArg α) : (h.insertP E comp o x).Steady := by unfold BHeap.insertP; steady
theorem hinsertAll (h : BHeap) (vs : List α) : (h.insertAllP E comp o vs).Steady := by
  induction vs generalizing o h with
  | nil => trivial
  | cons v vs ih => exact bind (hinsert E o comp h _) fun r => ih _ _
macro_rules | `(tactic| steady_known) => `(tactic| first
  | with_reducible exact Prog.Steady.hpercolateDown _ _ _ _ _ _ | with_reducible exact Prog.Steady.hinsert _ _ _ _ _
  | with_reducible exact Prog.Steady.hinsertAll _ _ _ _ _)
theorem hofList (vs : List α) : (BHeap.ofListP E comp o vs).Steady := by unfold BHeap.ofListP; steady
theorem hpeek (h : BHeap) : (h.peekP E o).Steady := eltRead E o _
theorem hmoveElem (dst src : Nat) : (BHeap.moveElemP E o dst src).Steady := by unfold BHeap.moveElemP; steady
macro_rules | `(tactic| steady_known) => `(tactic| first
  | with_reducible exact Prog.Steady.hofList _ _ _ _ | with_reducible exact Prog.Steady.hpeek _ _ _
  | with_reducible exact Prog.Steady.hmoveElem _ _ _ _)
theorem hpop (h : BHeap) : (h.popP E comp o).Steady := by unfold BHeap.popP; steady
theorem hfind (f : α → Bool) (beg i n : Nat) : (BHeap.findP E f o beg i n).Steady := by
  induction n generalizing i with
  | zero => trivial
  | succ n ih =>
    refine bind (eltRead E o _) fun x => ?_
    split
    · trivial
    · exact ih _
theorem hclear (h : BHeap) : (h.clearP E o).Steady := by unfold BHeap.clearP; steady
macro_rules | `(tactic| steady_known) => `(tactic| first
  | with_reducible exact Prog.Steady.hpop _ _ _ _ | with_reducible exact Prog.Steady.hfind _ _ _ _ _ _
  | with_reducible exact Prog.Steady.hclear _ _ _)
theorem hcopyAssign (c : THeaps α) (i j : Nat) : (c.copyAssign E i j).Steady := by unfold THeaps.copyAssign; steady
theorem hmoveAssign (c : THeaps α) (i j : Nat) : (c.moveAssign E i j).Steady := by unfold THeaps.moveAssign; steady
macro_rules | `(tactic| steady_known) => `(tactic| first
  | with_reducible exact Prog.Steady.hcopyAssign _ _ _ _ | with_reducible exact Prog.Steady.hmoveAssign _ _ _ _)
theorem hstep (c : THeaps α) (op : BOp α) : (c.step E comp eq op).Steady := by cases op <;> (simp only [THeaps.step]; steady)
theorem hrun (c : THeaps α) (ops : List (BOp α)) : (c.run E comp eq ops).Steady := by
  induction ops generalizing c with
  | nil => trivial
  | cons o os ih => exact bind (hstep E comp eq c o) fun c' => ih c'
theorem hdestroyAll (hs : List BHeap) : (THeaps.destroyAll E o hs).Steady := by
  induction hs generalizing o with
  | nil => trivial
  | cons h hs ih => exact bind (hdestroy E o h) fun o' => ih o'
theorem hthread (ops : List (BOp α)) : (KTL.hthread E comp eq ops).Steady :=
  bind (hrun E comp eq _ ops) fun _ => bind (hdestroyAll E _ _) fun _ => trivial

end Prog.Steady
end KTL
