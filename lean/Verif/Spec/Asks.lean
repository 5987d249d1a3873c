import Verif.Conc.ProgArray
import Verif.Conc.ProgHeap

/- How many requests a program with containers makes at most. Proof machinery for C100. -/
namespace KTL

/-- The program makes at most `m` requests. Proof helper, not code. -/
def Prog.Asks {α : Type} : Prog α → Nat → Prop
  | .ret _, _ => True
  | .stop, _ => True
  | .ub, _ => True
  | .load _ k, m => ∀ v, (k v).Asks m
  | .store _ _ k, m => k.Asks m
  | .alloc _ k, m => ∃ m', m = m' + 1 ∧ ∀ p, (k p).Asks m'
  | .dealloc _ _ k, m => k.Asks m

/-- How often an operation of a program with heaps may ask for memory: the constructor from a list inserts the elements one by one, the others
ask once at most. Specification, not code. -/
def BOp.asks {α : Type} : BOp α → Nat
  | .newList vs => vs.length + 1
  | _ => 1

namespace Prog.Asks
variable {α β : Type}

theorem pure {m : Nat} (a : α) : (Pure.pure a : Prog α).Asks m := trivial

theorem mono {x : Prog α} {m m' : Nat} (h : x.Asks m) (hm : m ≤ m') : x.Asks m' := by
  induction x generalizing m m' with
  | ret a => trivial
  | stop => trivial
  | ub => trivial
  | load p k ih => exact fun v => ih v (h v) hm
  | store p v k ih => exact ih h hm
  | alloc n k ih =>
    obtain ⟨l, rfl, hk⟩ := h
    exact ⟨m' - 1, by omega, fun p => ih p (hk p) (by omega)⟩
  | dealloc p n k ih => exact ih h hm

theorem bind {x : Prog α} {f : α → Prog β} {m l : Nat} (h : x.Asks m) (hf : ∀ a, (f a).Asks l) : (x >>= f).Asks (m + l) := by
  show (x.bind f).Asks (m + l)
  induction x generalizing m with
  | ret a => exact (hf a).mono (by omega)
  | stop => trivial
  | ub => trivial
  | load p k ih => exact fun v => ih v (h v)
  | store p v k ih => exact ih h
  | alloc n k ih =>
    obtain ⟨m', rfl, hk⟩ := h
    exact ⟨m' + l, by omega, fun p => ih p (hk p)⟩
  | dealloc p n k ih => exact ih h

theorem bind0 {x : Prog α} {f : α → Prog β} {m : Nat} (h : x.Asks 0) (hf : ∀ a, (f a).Asks m) : (x >>= f).Asks m :=
  (bind h hf).mono (by omega)
theorem bind1 {x : Prog α} {f : α → Prog β} {m : Nat} (h : x.Asks (m + 1)) (hf : ∀ a, (f a).Asks 0) : (x >>= f).Asks (m + 1) :=
  (bind h hf).mono (by omega)

theorem ub {m : Nat} : (Prog.ub : Prog α).Asks m := trivial

theorem readBytes {m : Nat} (p n : Nat) : (Prog.readBytes p n).Asks m := by
  induction n generalizing p with
  | zero => trivial
  | succ n ih => exact fun v => (bind (ih _) fun _ => pure (m := 0) _).mono (by omega)

theorem writeBytes {m : Nat} (p : Nat) (bs : List UInt8) : (Prog.writeBytes p bs).Asks m := by
  induction bs generalizing p with
  | nil => trivial
  | cons x xs ih => exact ih _

theorem grab {m : Nat} (sz n : Nat) : (Prog.grab sz n).Asks (m + 1) := ⟨m, rfl, fun p => by
  show (if p = 0 ∧ n ≠ 0 then Prog.stop else Prog.ret p).Asks m
  split <;> trivial⟩

theorem ungrab {m : Nat} (sz p n : Nat) : (Prog.ungrab sz p n).Asks m := trivial

/-- the lemmas known so far -/
syntax "asks_known" : tactic
macro_rules | `(tactic| asks_known) => `(tactic| first
  | with_reducible exact Prog.Asks.pure _ | with_reducible exact Prog.Asks.ub | with_reducible exact Prog.Asks.readBytes _ _ | with_reducible exact Prog.Asks.writeBytes _ _
  | with_reducible exact Prog.Asks.grab _ _ | with_reducible exact Prog.Asks.ungrab _ _ _)
/-- go through a program -/
syntax "asks" : tactic
macro_rules | `(tactic| asks) => `(tactic| repeat' first
  | asks_known | assumption | ((with_reducible refine Prog.Asks.bind0 ?_ fun _ => ?_); focus (asks; done)) | (with_reducible refine Prog.Asks.bind1 ?_ fun _ => ?_) | split)

theorem memmove {m : Nat} (dst src n : Nat) : (Prog.memmove dst src n).Asks m := by unfold Prog.memmove; asks
macro_rules | `(tactic| asks_known) => `(tactic| with_reducible exact Prog.Asks.memmove _ _ _)
theorem memcpy {m : Nat} (dst src n : Nat) : (Prog.memcpy dst src n).Asks m := by unfold Prog.memcpy; asks
macro_rules | `(tactic| asks_known) => `(tactic| with_reducible exact Prog.Asks.memcpy _ _ _)

/-! ### Vectors -/

theorem fetch {m : Nat} (n : Nat) (x : Arg) : (x.fetchP n).Asks m := by cases x <;> (unfold Arg.fetchP; asks)
macro_rules | `(tactic| asks_known) => `(tactic| with_reducible exact Prog.Asks.fetch _ _)
theorem argCopy {m : Nat} (dst n : Nat) (x : Arg) : (x.copyP dst n).Asks m := by cases x <;> (unfold Arg.copyP; asks)
macro_rules | `(tactic| asks_known) => `(tactic| with_reducible exact Prog.Asks.argCopy _ _ _)
theorem vofSize {m : Nat} (sz n : Nat) : (Vec.ofSizeP sz n).Asks (m + 1) := by unfold Vec.ofSizeP; asks
macro_rules | `(tactic| asks_known) => `(tactic| with_reducible exact Prog.Asks.vofSize _ _)
theorem vofFill {m : Nat} (sz n : Nat) (x : Arg) : (Vec.ofFillP sz n x).Asks (m + 1) := by unfold Vec.ofFillP; asks
theorem vofRange {m : Nat} (sz n : Nat) (x : Arg) : (Vec.ofRangeP sz n x).Asks (m + 1) := by unfold Vec.ofRangeP; asks
theorem vcopy {m : Nat} (sz : Nat) (o : Vec) : (Vec.copyP sz o).Asks (m + 1) := by unfold Vec.copyP; asks
theorem vdestroy {m : Nat} (sz : Nat) (o : Vec) : (Vec.destroyP sz o).Asks m := by unfold Vec.destroyP; asks
theorem vsetSize {m : Nat} (sz : Nat) (v : Vec) (n : Nat) : (Vec.setSizeP sz v n).Asks (m + 1) := by unfold Vec.setSizeP; asks
theorem vexpand {m : Nat} (sz : Nat) (v : Vec) (n : Nat) : (Vec.expandP sz v n).Asks (m + 1) := vsetSize _ _ _
macro_rules | `(tactic| asks_known) => `(tactic| first
  | with_reducible exact Prog.Asks.vofFill _ _ _ | with_reducible exact Prog.Asks.vofRange _ _ _
  | with_reducible exact Prog.Asks.vcopy _ _ | with_reducible exact Prog.Asks.vdestroy _ _ | with_reducible exact Prog.Asks.vsetSize _ _ _ | with_reducible exact Prog.Asks.vexpand _ _ _)
theorem vresize {m : Nat} (sz : Nat) (v : Vec) (n : Nat) : (Vec.resizeP sz v n).Asks (m + 1) := by unfold Vec.resizeP; asks
theorem vreserve {m : Nat} (sz : Nat) (v : Vec) (n : Nat) : (Vec.reserveP sz v n).Asks (m + 1) := by unfold Vec.reserveP; asks
theorem vpush {m : Nat} (sz : Nat) (v : Vec) (x : Arg) : (Vec.pushBackP sz v x).Asks (m + 1) := by unfold Vec.pushBackP; asks
theorem vpushRange {m : Nat} (sz : Nat) (v : Vec) (n : Nat) (x : Arg) : (Vec.pushRangeP sz v n x).Asks (m + 1) := by unfold Vec.pushRangeP; asks
theorem verase {m : Nat} (sz : Nat) (v : Vec) (n : Nat) : (Vec.eraseP sz v n).Asks m := by unfold Vec.eraseP; asks
theorem veraseRange {m : Nat} (sz : Nat) (v : Vec) (n l : Nat) : (Vec.eraseRangeP sz v n l).Asks m := by unfold Vec.eraseRangeP; asks
macro_rules | `(tactic| asks_known) => `(tactic| first
  | with_reducible exact Prog.Asks.vresize _ _ _ | with_reducible exact Prog.Asks.vreserve _ _ _
  | with_reducible exact Prog.Asks.vpush _ _ _ | with_reducible exact Prog.Asks.vpushRange _ _ _ _ | with_reducible exact Prog.Asks.verase _ _ _ | with_reducible exact Prog.Asks.veraseRange _ _ _ _)
theorem vcopyAssign {m : Nat} (sz : Nat) (c : TVecs) (i j : Nat) : (c.copyAssign sz i j).Asks (m + 1) := by unfold TVecs.copyAssign; asks
theorem vmoveAssign {m : Nat} (sz : Nat) (c : TVecs) (i j : Nat) : (c.moveAssign sz i j).Asks m := by unfold TVecs.moveAssign; asks
macro_rules | `(tactic| asks_known) => `(tactic| first
  | with_reducible exact Prog.Asks.vcopyAssign _ _ _ _ | with_reducible exact Prog.Asks.vmoveAssign _ _ _ _)
theorem vstep {m : Nat} (sz : Nat) (c : TVecs) (o : VOp) : (c.step sz o).Asks (m + 1) := by cases o <;> (simp only [TVecs.step]; asks)
theorem vrun (sz : Nat) (c : TVecs) (ops : List VOp) : (c.run sz ops).Asks ops.length := by
  induction ops generalizing c with
  | nil => trivial
  | cons o os ih => exact (bind (vstep (m := 0) sz c o) fun c' => ih c').mono (by simp; omega)
theorem vdestroyAll {m : Nat} (sz : Nat) (vs : List Vec) : (TVecs.destroyAll sz vs).Asks m := by
  induction vs with
  | nil => trivial
  | cons v vs ih => exact bind0 (vdestroy sz v) fun _ => ih
theorem vthread (sz : Nat) (ops : List VOp) : (KTL.vthread sz ops).Asks ops.length :=
  (bind (vrun sz _ ops) fun _ => bind0 (m := 0) (vdestroyAll sz _) fun _ => pure _).mono (by simp)

/-! ### Arrays -/

theorem aofSize {m : Nat} (sz n : Nat) : (Arr.ofSizeP sz n).Asks (m + 1) := by unfold Arr.ofSizeP; asks
macro_rules | `(tactic| asks_known) => `(tactic| with_reducible exact Prog.Asks.aofSize _ _)
theorem aofFill {m : Nat} (sz n : Nat) (x : Arg) : (Arr.ofFillP sz n x).Asks (m + 1) := by unfold Arr.ofFillP; asks
theorem aofRange {m : Nat} (sz n : Nat) (x : Arg) : (Arr.ofRangeP sz n x).Asks (m + 1) := by unfold Arr.ofRangeP; asks
theorem acopy {m : Nat} (sz : Nat) (o : Arr) : (Arr.copyP sz o).Asks (m + 1) := by unfold Arr.copyP; asks
theorem adestroy {m : Nat} (sz : Nat) (o : Arr) : (Arr.destroyP sz o).Asks m := by unfold Arr.destroyP; asks
macro_rules | `(tactic| asks_known) => `(tactic| first
  | with_reducible exact Prog.Asks.aofFill _ _ _ | with_reducible exact Prog.Asks.aofRange _ _ _
  | with_reducible exact Prog.Asks.acopy _ _ | with_reducible exact Prog.Asks.adestroy _ _)
theorem aresize {m : Nat} (sz : Nat) (v : Arr) (n : Nat) : (Arr.resizeP sz v n).Asks (m + 1) := by unfold Arr.resizeP; asks
theorem aassignRoom {m : Nat} (sz : Nat) (v : Arr) (n : Nat) : (Arr.assignRoomP sz v n).Asks (m + 1) := by unfold Arr.assignRoomP; asks
macro_rules | `(tactic| asks_known) => `(tactic| first
  | with_reducible exact Prog.Asks.aresize _ _ _ | with_reducible exact Prog.Asks.aassignRoom _ _ _)
theorem aassign {m : Nat} (sz : Nat) (v : Arr) (n : Nat) (x : Arg) : (Arr.assignP sz v n x).Asks (m + 1) := by unfold Arr.assignP; asks
theorem acopyAssign {m : Nat} (sz : Nat) (c : TArrs) (i j : Nat) : (c.copyAssign sz i j).Asks (m + 1) := by unfold TArrs.copyAssign; asks
theorem amoveAssign {m : Nat} (sz : Nat) (c : TArrs) (i j : Nat) : (c.moveAssign sz i j).Asks m := by unfold TArrs.moveAssign; asks
macro_rules | `(tactic| asks_known) => `(tactic| first
  | with_reducible exact Prog.Asks.aassign _ _ _ _ | with_reducible exact Prog.Asks.acopyAssign _ _ _ _
  | with_reducible exact Prog.Asks.amoveAssign _ _ _ _)
theorem astep {m : Nat} (sz : Nat) (c : TArrs) (o : ArrOp) : (c.step sz o).Asks (m + 1) := by cases o <;> (simp only [TArrs.step]; asks)
theorem arun (sz : Nat) (c : TArrs) (ops : List ArrOp) : (c.run sz ops).Asks ops.length := by
  induction ops generalizing c with
  | nil => trivial
  | cons o os ih => exact (bind (astep (m := 0) sz c o) fun c' => ih c').mono (by simp; omega)
theorem adestroyAll {m : Nat} (sz : Nat) (vs : List Arr) : (TArrs.destroyAll sz vs).Asks m := by
  induction vs with
  | nil => trivial
  | cons v vs ih => exact bind0 (adestroy sz v) fun _ => ih
theorem athread (sz : Nat) (ops : List ArrOp) : (KTL.athread sz ops).Asks ops.length :=
  (bind (arun sz _ ops) fun _ => bind0 (m := 0) (adestroyAll sz _) fun _ => pure _).mono (by simp)

/-! ### Heaps -/
variable (E : Elt α) (o : Objs α) (comp eq : α → α → Bool)

theorem eltAt {m : Nat} (p : Nat) : (E.atP o p).Asks m := by unfold Elt.atP; asks
macro_rules | `(tactic| asks_known) => `(tactic| with_reducible exact Prog.Asks.eltAt _ _ _)
theorem eltRead {m : Nat} (p : Nat) : (E.readP o p).Asks m := by unfold Elt.readP; asks
macro_rules | `(tactic| asks_known) => `(tactic| with_reducible exact Prog.Asks.eltRead _ _ _)
theorem eltConstruct {m : Nat} (p : Nat) (v : α) : (E.constructP o p v).Asks m := by unfold Elt.constructP; asks
theorem eltAssign {m : Nat} (p : Nat) (v : α) : (E.assignP o p v).Asks m := by unfold Elt.assignP; asks
theorem eltDestroy {m : Nat} (p : Nat) : (E.destroyP o p).Asks m := by unfold Elt.destroyP; asks
theorem eltDealloc {m : Nat} (p n : Nat) : (E.deallocP o p n).Asks m := by unfold Elt.deallocP; asks
theorem hfetch {m : Nat} (x : HArg α) : (x.fetchP E o).Asks m := by cases x <;> (unfold HArg.fetchP; asks)
macro_rules | `(tactic| asks_known) => `(tactic| first
  | with_reducible exact Prog.Asks.eltConstruct _ _ _ _ | with_reducible exact Prog.Asks.eltAssign _ _ _ _
  | with_reducible exact Prog.Asks.eltDestroy _ _ _ | with_reducible exact Prog.Asks.eltDealloc _ _ _ _ | with_reducible exact Prog.Asks.hfetch _ _ _)
theorem eltMoveOut {m : Nat} (p : Nat) : (E.moveOutP o p).Asks m := by unfold Elt.moveOutP; asks
macro_rules | `(tactic| asks_known) => `(tactic| with_reducible exact Prog.Asks.eltMoveOut _ _ _)
theorem hofCap {m : Nat} (n : Nat) : (BHeap.ofCapP E n).Asks (m + 1) := by unfold BHeap.ofCapP; asks
theorem hdestroyLoop {m : Nat} (beg i n : Nat) : (BHeap.destroyAllP E beg i n o).Asks m := by
  induction n generalizing i o with
  | zero => trivial
  | succ n ih => exact bind0 (eltDestroy E o _) fun o' => ih o' _
theorem hcopyLoop {m : Nat} (dst src i n : Nat) : (BHeap.copyAllP E dst src i n o).Asks m := by
  induction n generalizing i o with
  | zero => trivial
  | succ n ih => exact bind0 (eltRead E o _) fun v => bind0 (eltConstruct E o _ v) fun o' => ih o' _
theorem hmoveLoop {m : Nat} (dst src i n : Nat) : (BHeap.moveAllP E dst src i n o).Asks m := by
  induction n generalizing i o with
  | zero => trivial
  | succ n ih => exact bind0 (eltMoveOut E o _) fun r => bind0 (eltConstruct E _ _ _) fun o' => ih o' _
macro_rules | `(tactic| asks_known) => `(tactic| first
  | with_reducible exact Prog.Asks.hofCap _ _ | with_reducible exact Prog.Asks.hdestroyLoop _ _ _ _ _
  | with_reducible exact Prog.Asks.hcopyLoop _ _ _ _ _ _ | with_reducible exact Prog.Asks.hmoveLoop _ _ _ _ _ _)
theorem hdestroy {m : Nat} (h : BHeap) : (h.destroyP E o).Asks m := by unfold BHeap.destroyP; asks
theorem hcopy {m : Nat} (h : BHeap) : (h.copyP E o).Asks (m + 1) := by unfold BHeap.copyP; asks
theorem hsetSize {m : Nat} (h : BHeap) (n : Nat) : (h.setSizeP E o n).Asks (m + 1) := by unfold BHeap.setSizeP; asks
theorem hexpand {m : Nat} (h : BHeap) (n : Nat) : (h.expandP E o n).Asks (m + 1) := hsetSize _ _ _ _
macro_rules | `(tactic| asks_known) => `(tactic| first
  | with_reducible exact Prog.Asks.hdestroy _ _ _ | with_reducible exact Prog.Asks.hcopy _ _ _
  | with_reducible exact Prog.Asks.hsetSize _ _ _ _ | with_reducible exact Prog.Asks.hexpand _ _ _ _)
theorem hreserve {m : Nat} (h : BHeap) (n : Nat) : (h.reserveP E o n).Asks (m + 1) := by unfold BHeap.reserveP; asks
theorem hupLoop {m : Nat} (beg : Nat) (value : α) (index : Nat) : (BHeap.upLoopP E comp beg value index o).Asks m := by
  induction index using Nat.strongRecOn generalizing o with
  | _ index ih =>
    unfold BHeap.upLoopP
    split
    · refine bind0 (eltRead E o _) fun pv => ?_
      split
      · exact bind0 (eltMoveOut E o _) fun r => bind0 (eltAssign E _ _ _) fun o' => ih _ (by omega) o'
      · trivial
    · trivial
macro_rules | `(tactic| asks_known) => `(tactic| first
  | with_reducible exact Prog.Asks.hreserve _ _ _ _ | with_reducible exact Prog.Asks.hupLoop _ _ _ _ _ _)
theorem hpercolateUp {m : Nat} (beg index : Nat) : (BHeap.percolateUpP E comp beg index o).Asks m := by unfold BHeap.percolateUpP; asks
theorem hbetter {m : Nat} (beg size c child : Nat) : (BHeap.betterP E comp beg size o c child).Asks m := by unfold BHeap.betterP; asks
theorem hdownLoop {m : Nat} (beg size fuel parent : Nat) : (BHeap.downLoopP E comp beg size fuel parent o).Asks m := by
  induction fuel generalizing parent o with
  | zero => trivial
  | succ n ih =>
    unfold BHeap.downLoopP
    split
    · refine bind0 (hbetter E o comp _ _ _ _) fun c => bind0 (hbetter E o comp _ _ _ _) fun child => ?_
      split
      · trivial
      · exact bind0 (eltMoveOut E _ _) fun t => bind0 (eltMoveOut E _ _) fun p => bind0 (eltAssign E _ _ _) fun o1 =>
          bind0 (eltAssign E _ _ _) fun o2 => ih o2 _
    · trivial
macro_rules | `(tactic| asks_known) => `(tactic| first
  | with_reducible exact Prog.Asks.hpercolateUp _ _ _ _ _ | with_reducible exact Prog.Asks.hdownLoop _ _ _ _ _ _ _)
theorem hpercolateDown {m : Nat} (beg size index : Nat) : (BHeap.percolateDownP E comp beg size index o).Asks m := by unfold BHeap.percolateDownP; asks
theorem hinsert {m : Nat} (h : BHeap) (x : HArg α) : (h.insertP E comp o x).Asks (m + 1) := by unfold BHeap.insertP; asks
theorem hinsertAll (h : BHeap) (vs : List α) : (h.insertAllP E comp o vs).Asks vs.length := by
  induction vs generalizing o h with
  | nil => trivial
  | cons v vs ih => exact (bind (hinsert (m := 0) E o comp h _) fun r => ih _ _).mono (by simp; omega)
macro_rules | `(tactic| asks_known) => `(tactic| first
  | with_reducible exact Prog.Asks.hpercolateDown _ _ _ _ _ _ | with_reducible exact Prog.Asks.hinsert _ _ _ _ _)
theorem hofList (vs : List α) : (BHeap.ofListP E comp o vs).Asks (vs.length + 1) :=
  (bind (hofCap (m := 0) E _) fun _ => hinsertAll E o comp _ vs).mono (by omega)
theorem hpeek {m : Nat} (h : BHeap) : (h.peekP E o).Asks m := eltRead E o _
theorem hmoveElem {m : Nat} (dst src : Nat) : (BHeap.moveElemP E o dst src).Asks m := by unfold BHeap.moveElemP; asks
macro_rules | `(tactic| asks_known) => `(tactic| first
  | with_reducible exact Prog.Asks.hpeek _ _ _
  | with_reducible exact Prog.Asks.hmoveElem _ _ _ _)
theorem hpop {m : Nat} (h : BHeap) : (h.popP E comp o).Asks m := by unfold BHeap.popP; asks
theorem hfind {m : Nat} (f : α → Bool) (beg i n : Nat) : (BHeap.findP E f o beg i n).Asks m := by
  induction n generalizing i with
  | zero => trivial
  | succ n ih =>
    refine bind0 (eltRead E o _) fun x => ?_
    split
    · trivial
    · exact ih _
theorem hclear {m : Nat} (h : BHeap) : (h.clearP E o).Asks m := by unfold BHeap.clearP; asks
macro_rules | `(tactic| asks_known) => `(tactic| first
  | with_reducible exact Prog.Asks.hpop _ _ _ _ | with_reducible exact Prog.Asks.hfind _ _ _ _ _ _
  | with_reducible exact Prog.Asks.hclear _ _ _)
theorem hcopyAssign {m : Nat} (c : THeaps α) (i j : Nat) : (c.copyAssign E i j).Asks (m + 1) := by unfold THeaps.copyAssign; asks
theorem hmoveAssign {m : Nat} (c : THeaps α) (i j : Nat) : (c.moveAssign E i j).Asks m := by unfold THeaps.moveAssign; asks
macro_rules | `(tactic| asks_known) => `(tactic| first
  | with_reducible exact Prog.Asks.hcopyAssign _ _ _ _ | with_reducible exact Prog.Asks.hmoveAssign _ _ _ _)
theorem hstep (c : THeaps α) (op : BOp α) : (c.step E comp eq op).Asks op.asks := by
  cases op
  case newList vs => exact (bind (hofList E _ comp vs) fun _ => pure (m := 0) _).mono (by simp [BOp.asks])
  all_goals
    show Prog.Asks _ (0 + 1)
    simp only [THeaps.step]
    asks
theorem hrun (c : THeaps α) (ops : List (BOp α)) : (c.run E comp eq ops).Asks (ops.map BOp.asks).sum := by
  induction ops generalizing c with
  | nil => trivial
  | cons o os ih => exact (bind (hstep E comp eq c o) fun c' => ih c').mono (by simp)
theorem hdestroyAll {m : Nat} (hs : List BHeap) : (THeaps.destroyAll E o hs).Asks m := by
  induction hs generalizing o with
  | nil => trivial
  | cons h hs ih => exact bind0 (hdestroy E o h) fun o' => ih o'
theorem hthread (ops : List (BOp α)) : (KTL.hthread E comp eq ops).Asks (ops.map BOp.asks).sum :=
  (bind (hrun E comp eq _ ops) fun _ => bind0 (m := 0) (hdestroyAll E _ _) fun _ => pure _).mono (by simp)

end Prog.Asks
end KTL
