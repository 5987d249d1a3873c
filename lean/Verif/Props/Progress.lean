import Verif.Props.Gang
import Mathlib.Data.DFinsupp.WellFounded

/- C103: calls are short, the mutex is held briefly, and every thread comes to its end under every fair schedule. -/
namespace KTL

/-! ### Specification -/

/-- The call makes at most `k` accesses (bytes read or written, calls of `malloc`, `free` and `operator<<`), whatever it reads. -/
def Body.Short {g : Bool} {α : Type} : Body g α → Nat → Prop
  | .ret _, _ => True
  | .ub, _ => True
  | .null _, _ => True
  | .load _ f, k => ∃ j, k = j + 1 ∧ ∀ v, (f v).Short j
  | .store _ _ x, k => ∃ j, k = j + 1 ∧ x.Short j
  | .malloc _ _ f, k => ∃ j, k = j + 1 ∧ ∀ p, (f p).Short j
  | .free _ _ x, k => ∃ j, k = j + 1 ∧ x.Short j
  | .print _ _ x, k => ∃ j, k = j + 1 ∧ x.Short j

namespace AllocTy

/-- accesses of `alignedMalloc`: the call of `malloc`, and 8 bytes for the original address in the portable variant -/
def mallocCost : Plat → Nat
  | .direct => 1
  | .manual => 9

/-- accesses of the constructor -/
def initCost (plat : Plat) : AllocTy → Nat
  | null => 0
  | mallocator => 0
  | linear _ => 0
  | stack _ => 0
  | freelist _ _ A => A.initCost plat
  | fallback P F => P.initCost plat + F.initCost plat
  | segragator _ P F => P.initCost plat + F.initCost plat
  | cascading _ => 0
  | overflow A => A.initCost plat
  | threaded A => A.initCost plat
  | shared A => mallocCost plat + A.initCost plat
  | reference A => A.initCost plat

/-- accesses of one call of `allocate`, at most. A cascading asks two instances, and may have to make both. -/
def allocCost (plat : Plat) : AllocTy → Nat
  | null => 0
  | mallocator => mallocCost plat
  | linear _ => 0
  | stack _ => 0
  | freelist _ _ A => max 8 (A.allocCost plat)
  | fallback P F => P.allocCost plat + F.allocCost plat
  | segragator _ P F => max (P.allocCost plat) (F.allocCost plat)
  | cascading A => 2 * (mallocCost plat + A.initCost plat + A.allocCost plat)
  | overflow A => A.allocCost plat + 128
  | threaded A => A.allocCost plat
  | shared A => A.allocCost plat
  | reference A => A.allocCost plat

/-- accesses of the destructor, where it contains no loop -/
def finiCost (plat : Plat) : AllocTy → Nat
  | null => 0
  | mallocator => 0
  | linear _ => 0
  | stack _ => 0
  | freelist _ _ _ => 0
  | fallback P F => F.finiCost plat + P.finiCost plat
  | segragator _ P F => F.finiCost plat + P.finiCost plat
  | cascading _ => 0
  | overflow A => 2 + A.finiCost plat
  | threaded A => A.finiCost plat
  | shared A => A.finiCost plat + mallocCost plat
  | reference A => A.finiCost plat

/-- accesses of one call of `deallocate`, at most. A cascading gives the block to its owner and may destroy that instance. -/
def freeCost (plat : Plat) : AllocTy → Nat
  | null => 0
  | mallocator => mallocCost plat
  | linear _ => 0
  | stack _ => 0
  | freelist _ _ _ => 8
  | fallback P F => max (P.freeCost plat) (F.freeCost plat)
  | segragator _ P F => max (P.freeCost plat) (F.freeCost plat)
  | cascading A => A.freeCost plat + A.finiCost plat + mallocCost plat
  | overflow A => 129 + A.freeCost plat
  | threaded A => A.freeCost plat
  | shared A => A.freeCost plat
  | reference A => A.freeCost plat

/-- no destructor in the type contains a loop: neither that of `freelist` (`allocators/freelist.h:228-238`) nor that of `cascading`
(`allocators/cascading.h:264-281`) -/
def loopless : AllocTy → Bool
  | null => true
  | mallocator => true
  | linear _ => true
  | stack _ => true
  | freelist _ _ _ => false
  | fallback P F => P.loopless && F.loopless
  | segragator _ P F => P.loopless && F.loopless
  | cascading _ => false
  | overflow A => A.loopless
  | threaded A => A.loopless
  | shared A => A.loopless
  | reference A => A.loopless

/-- instances of a `cascading`, which it destroys during `deallocate`, have destructors without loops -/
def brief : AllocTy → Bool
  | null => true
  | mallocator => true
  | linear _ => true
  | stack _ => true
  | freelist _ _ A => A.brief
  | fallback P F => P.brief && F.brief
  | segragator _ P F => P.brief && F.brief
  | cascading A => A.brief && A.loopless
  | overflow A => A.brief
  | threaded A => A.brief
  | shared A => A.brief
  | reference A => A.brief

theorem loopFree_of_loopless (t : AllocTy) (h : t.loopless = true) : t.loopFree = true := by
  induction t <;> simp_all [loopless, loopFree]

theorem stepwise_of_brief (t : AllocTy) (h : t.brief = true) : t.stepwise = true := by
  induction t with
  | cascading A ih =>
    simp only [brief, Bool.and_eq_true] at h
    simp only [stepwise, Bool.and_eq_true]
    exact ⟨ih h.1, A.loopFree_of_loopless h.2⟩
  | _ => simp_all [brief, stepwise]

end AllocTy

/-! ### Counting -/

namespace Body
variable {g : Bool} {α β : Type}

theorem Short.mono {x : Body g α} {k k' : Nat} (h : x.Short k) (hk : k ≤ k') : x.Short k' := by
  induction x generalizing k k' with
  | ret => trivial
  | ub => trivial
  | null => trivial
  | load p f ih =>
    obtain ⟨j, rfl, h⟩ := h
    exact ⟨k' - 1, by omega, fun v => ih v (h v) (by omega)⟩
  | store p v x ih =>
    obtain ⟨j, rfl, h⟩ := h
    exact ⟨k' - 1, by omega, ih h (by omega)⟩
  | malloc hg n f ih =>
    obtain ⟨j, rfl, h⟩ := h
    exact ⟨k' - 1, by omega, fun v => ih v (h v) (by omega)⟩
  | free hg p x ih =>
    obtain ⟨j, rfl, h⟩ := h
    exact ⟨k' - 1, by omega, ih h (by omega)⟩
  | print hg m x ih =>
    obtain ⟨j, rfl, h⟩ := h
    exact ⟨k' - 1, by omega, ih h (by omega)⟩

theorem Short.left {x : Body g α} {k l : Nat} (h : x.Short k) : x.Short (max k l) := h.mono (Nat.le_max_left ..)

theorem Short.right {x : Body g α} {k l : Nat} (h : x.Short l) : x.Short (max k l) := h.mono (Nat.le_max_right ..)

theorem Short.pure (a : α) (k : Nat) : (Pure.pure a : Body g α).Short k := trivial

theorem Short.bind {x : Body g α} {f : α → Body g β} {k l : Nat} (h : x.Short k) (hf : ∀ a, (f a).Short l) : (x >>= f).Short (k + l) := by
  show (x.bind f).Short _
  induction x generalizing k with
  | ret a => exact (hf a).mono (by omega)
  | ub => trivial
  | null => trivial
  | load p c ih =>
    obtain ⟨j, rfl, h⟩ := h
    exact ⟨j + l, by omega, fun v => ih v (h v)⟩
  | store p v x ih =>
    obtain ⟨j, rfl, h⟩ := h
    exact ⟨j + l, by omega, ih h⟩
  | malloc hg n c ih =>
    obtain ⟨j, rfl, h⟩ := h
    exact ⟨j + l, by omega, fun v => ih v (h v)⟩
  | free hg p x ih =>
    obtain ⟨j, rfl, h⟩ := h
    exact ⟨j + l, by omega, ih h⟩
  | print hg m x ih =>
    obtain ⟨j, rfl, h⟩ := h
    exact ⟨j + l, by omega, ih h⟩

/-- for the last part of a call, which makes no access -/
theorem Short.map {x : Body g α} {f : α → Body g β} {k : Nat} (h : x.Short k) (hf : ∀ a, (f a).Short 0) : (x >>= f).Short k := h.bind hf

theorem Short.ite {c : Prop} [Decidable c] {x y : Body g α} {k : Nat} (h1 : c → x.Short k) (h2 : ¬ c → y.Short k) : (if c then x else y).Short k := by
  split
  · exact h1 ‹_›
  · exact h2 ‹_›

theorem short_readBytes (p n : Nat) : (readBytes p n : Body g _).Short n := by
  induction n generalizing p with
  | zero => trivial
  | succ n ih => exact ⟨n, rfl, fun v => (ih (p + 1)).map fun _ => trivial⟩

theorem short_writeBytes (p : Nat) (xs : List UInt8) : (writeBytes p xs : Body g _).Short xs.length := by
  induction xs generalizing p with
  | nil => trivial
  | cons x xs ih => exact ⟨xs.length, rfl, ih _⟩

theorem short_readPtr (p : Nat) : (readPtr p : Body g _).Short 8 := (short_readBytes p 8).map fun _ => trivial

theorem short_writePtr (p v : Nat) : (writePtr p v : Body g _).Short 8 := short_writeBytes p (M.encPtr v)

theorem short_alignedMalloc (plat : Plat) (n : Nat) : (alignedMalloc plat n).Short (AllocTy.mallocCost plat) := by
  cases plat with
  | direct => exact ⟨0, rfl, fun _ => trivial⟩
  | manual => exact ⟨8, rfl, fun p => Short.ite (fun _ => (short_writePtr _ _).map fun _ => trivial) fun _ => trivial⟩

theorem short_alignedFree (plat : Plat) (p : Nat) : (alignedFree plat p).Short (AllocTy.mallocCost plat) := by
  cases plat with
  | direct => exact ⟨0, rfl, trivial⟩
  | manual => exact Short.ite (fun _ => (short_readPtr _).bind (l := 1) fun q => ⟨0, rfl, trivial⟩) fun _ => trivial

theorem short_alignedNew (plat : Plat) (n : Nat) {c : Nat → Body false α} {k : Nat} (h : ∀ p, (c p).Short k) :
    (alignedNew plat n c).Short (AllocTy.mallocCost plat + k) :=
  (short_alignedMalloc plat n).bind fun p => Short.ite (fun _ => trivial) fun _ => (h p).map fun _ => trivial

theorem short_alignedDelete (plat : Plat) (p : Nat) {x : Body true Unit} {k : Nat} (h : x.Short k) :
    (alignedDelete plat p x).Short (k + AllocTy.mallocCost plat) := h.bind fun _ => short_alignedFree plat p

end Body

namespace Overflow

theorem short_scanBeforeB (p k r c : Nat) : (scanBeforeB p k r c).Short r := by
  induction r generalizing k c with
  | zero => trivial
  | succ r ih => exact ⟨r, rfl, fun v => ih ..⟩

theorem short_scanAfterB (p k r c : Nat) : (scanAfterB p k r c).Short r := by
  induction r generalizing k c with
  | zero => trivial
  | succ r ih => exact ⟨r, rfl, fun v => ih ..⟩

theorem short_printIf (c : Prop) [Decidable c] (m : Msg) : (printIf c m).Short 1 := by
  unfold printIf
  split
  · exact ⟨0, rfl, trivial⟩
  · trivial

end Overflow

namespace Cascading

theorem short_newNodeB (plat : Plat) (X : BAlloc) {k : Nat} (h : ∀ p, (X.init p).Short k) : (newNodeB plat X).Short (AllocTy.mallocCost plat + k) :=
  (Body.short_alignedNew plat _ h).map fun _ => trivial

theorem short_allocFrontB (plat : Plat) (X : BAlloc) {k l : Nat} (h : ∀ p, (X.init p).Short k) (ha : ∀ s n, (X.alloc s n).Short l)
    (nd : Node X.S) (rest : List (Node X.S)) (n : Nat) : (allocFrontB plat X nd rest n).Short (l + (AllocTy.mallocCost plat + k + l)) :=
  (ha _ _).bind fun _ => Body.Short.ite (fun _ => (short_newNodeB plat X h).bind fun _ => (ha _ _).map fun _ => trivial) fun _ => trivial

theorem short_allocB (plat : Plat) (X : BAlloc) {k l : Nat} (h : ∀ p, (X.init p).Short k) (ha : ∀ s n, (X.alloc s n).Short l)
    (s : List (Node X.S)) (n : Nat) : (allocB plat X s n).Short (AllocTy.mallocCost plat + k + (l + (AllocTy.mallocCost plat + k + l))) := by
  have he : (ensureB plat X s).Short (AllocTy.mallocCost plat + k) := by
    cases s with
    | nil => exact (short_newNodeB plat X h).map fun _ => trivial
    | cons => trivial
  refine he.bind fun s' => ?_
  cases s' with
  | nil => trivial
  | cons nd rest =>
    simp only
    split
    · exact short_allocFrontB plat X h ha nd rest n
    · split
      · trivial
      · exact Body.Short.ite (fun _ => trivial) fun _ => short_allocFrontB plat X h ha nd rest n

theorem short_deallocB (plat : Plat) (X : BAlloc) {k l : Nat} (hd : ∀ s p n, (X.dealloc s p n).Short k) (hf : ∀ s, (X.fini s).Short l)
    (p n : Nat) (prev : Bool) (s : List (Node X.S)) : (deallocB plat X p n prev s).Short (k + l + AllocTy.mallocCost plat) := by
  induction s generalizing prev with
  | nil => trivial
  | cons nd rest ih =>
    rw [deallocB]
    refine Body.Short.ite (fun _ => ?_) fun _ => (ih true).map fun _ => trivial
    rw [Nat.add_assoc]
    exact (hd _ _ _).bind fun _ => Body.Short.ite (fun _ => (Body.short_alignedDelete plat _ (hf _)).map fun _ => trivial) fun _ => trivial

end Cascading

namespace AllocTy

theorem short_init (plat : Plat) (t : AllocTy) (b : Nat) : ((t.denoteB plat).init b).Short (t.initCost plat) := by
  induction t generalizing b with
  | null => trivial
  | mallocator => trivial
  | linear _ => trivial
  | stack _ => trivial
  | freelist _ _ A ih => exact (ih b).map fun _ => trivial
  | fallback P F ihP ihF => exact (ihP b).bind fun _ => (ihF _).map fun _ => trivial
  | segragator _ P F ihP ihF => exact (ihP b).bind fun _ => (ihF _).map fun _ => trivial
  | cascading A ih => trivial
  | overflow A ih => exact (ih b).map fun _ => trivial
  | threaded A ih => exact ih b
  | shared A ih => exact Body.short_alignedNew plat _ fun p => ih p
  | reference A ih => exact ih b

theorem short_alloc (plat : Plat) (t : AllocTy) (s : (t.denoteB plat).S) (n : Nat) : ((t.denoteB plat).alloc s n).Short (t.allocCost plat) := by
  induction t generalizing n with
  | null => trivial
  | mallocator => exact (Body.short_alignedMalloc plat n).map fun _ => trivial
  | linear _ => trivial
  | stack _ => trivial
  | freelist m M A ih =>
    exact Body.Short.ite (fun _ => Body.Short.ite
      (fun _ => Body.Short.left ((Body.short_readPtr _).map fun _ => trivial))
      fun _ => Body.Short.right ((ih _ _).map fun _ => trivial)) fun _ => trivial
  | fallback P F ihP ihF =>
    exact (ihP _ _).bind fun _ => Body.Short.ite (fun _ => (ihF _ _).map fun _ => trivial) fun _ => trivial
  | segragator _ P F ihP ihF =>
    exact Body.Short.ite (fun _ => Body.Short.left ((ihP _ _).map fun _ => trivial))
      fun _ => Body.Short.right ((ihF _ _).map fun _ => trivial)
  | cascading A ih =>
    refine (Cascading.short_allocB plat (A.denoteB plat) (short_init plat A) (fun s n => ih s n) s n).mono ?_
    show _ ≤ 2 * _
    omega
  | overflow A ih =>
    refine (ih _ _).bind fun _ => Body.Short.ite (fun _ => trivial) fun _ => ?_
    exact (Body.short_writeBytes _ (List.replicate 64 Overflow.pattern)).bind (l := 64) fun _ =>
      (Body.short_writeBytes _ (List.replicate 64 Overflow.pattern)).map fun _ => trivial
  | threaded A ih => exact ih _ _
  | shared A ih => exact (ih _ _).map fun _ => trivial
  | reference A ih => exact ih _ _

theorem short_fini (plat : Plat) (t : AllocTy) (h : t.loopless = true) (s : (t.denoteB plat).S) :
    ((t.denoteB plat).fini s).Short (t.finiCost plat) := by
  induction t with
  | null => trivial
  | mallocator => trivial
  | linear _ => trivial
  | stack _ => trivial
  | freelist m M A ih => cases h
  | fallback P F ihP ihF =>
    simp only [loopless, Bool.and_eq_true] at h
    exact (ihF h.2 _).bind fun _ => ihP h.1 _
  | segragator _ P F ihP ihF =>
    simp only [loopless, Bool.and_eq_true] at h
    exact (ihF h.2 _).bind fun _ => ihP h.1 _
  | cascading A ih => cases h
  | overflow A ih =>
    show Body.Short _ (2 + A.finiCost plat)
    rw [show 2 + A.finiCost plat = 1 + (1 + A.finiCost plat) by omega]
    exact (Overflow.short_printIf _ _).bind fun _ => (Overflow.short_printIf _ _).bind fun _ => ih h _
  | threaded A ih => exact ih h _
  | shared A ih => exact Body.short_alignedDelete plat _ (ih h _)
  | reference A ih => exact ih h _

theorem short_dealloc (plat : Plat) (t : AllocTy) (h : t.brief = true) (s : (t.denoteB plat).S) (p n : Nat) :
    ((t.denoteB plat).dealloc s p n).Short (t.freeCost plat) := by
  induction t generalizing p n with
  | null => trivial
  | mallocator => exact Body.short_alignedFree plat p
  | linear _ => trivial
  | stack _ => trivial
  | freelist m M A ih =>
    exact Body.Short.ite (fun _ => (Body.short_writePtr _ _).map fun _ => trivial) fun _ => trivial
  | fallback P F ihP ihF =>
    simp only [brief, Bool.and_eq_true] at h
    exact Body.Short.ite (fun _ => Body.Short.left ((ihP h.1 _ _ _).map fun _ => trivial))
      fun _ => Body.Short.right ((ihF h.2 _ _ _).map fun _ => trivial)
  | segragator _ P F ihP ihF =>
    simp only [brief, Bool.and_eq_true] at h
    exact Body.Short.ite (fun _ => Body.Short.left ((ihP h.1 _ _ _).map fun _ => trivial))
      fun _ => Body.Short.right ((ihF h.2 _ _ _).map fun _ => trivial)
  | cascading A ih =>
    simp only [brief, Bool.and_eq_true] at h
    exact Cascading.short_deallocB plat (A.denoteB plat) (fun s p n => ih h.1 s p n) (A.short_fini plat h.2) p n false s
  | overflow A ih =>
    refine Body.Short.ite (fun _ => ?_) fun _ => trivial
    show Body.Short _ (129 + A.freeCost plat)
    rw [show 129 + A.freeCost plat = 64 + (64 + (1 + A.freeCost plat)) by omega]
    exact (Overflow.short_scanBeforeB ..).bind fun _ => (Overflow.short_scanAfterB ..).bind fun _ => (Overflow.short_printIf _ _).bind fun _ =>
      (ih h _ _ _).map fun _ => trivial
  | threaded A ih => exact ih h _ _ _
  | shared A ih => exact (ih h _ _ _).map fun _ => trivial
  | reference A ih => exact ih h _ _ _

end AllocTy

/-! ### One step of the threads -/

section
variable {X : BAlloc} {α : Type}

/-- what is left of the call under way -/
def Visit.Short (k : Nat) : Visit X α → Prop
  | .taking x _ => x.Short k
  | .giving x _ => x.Short k

theorem Body.Short.below {g : Bool} {β : Type} {x x' : Body g β} {k : Nat} (h : x.Short k) (hb : Body.Below x' x) : ∃ j, k = j + 1 ∧ x'.Short j := by
  cases hb with
  | load => obtain ⟨j, e, h⟩ := h; exact ⟨j, e, h _⟩
  | store => exact h
  | malloc => obtain ⟨j, e, h⟩ := h; exact ⟨j, e, h _⟩
  | free => exact h
  | print => exact h

/-- the call under way goes down by one access -/
inductive Visit.Below : Visit X α → Visit X α → Prop
  | taking {x x' k} : Body.Below x' x → Visit.Below (.taking x' k) (.taking x k)
  | giving {x x' k} : Body.Below x' x → Visit.Below (.giving x' k) (.giving x k)

theorem Visit.Below.of_step {sys : Sys} {c c' : Visit X α} {w w' : World} (ho : c.over = none) (h : c.step sys w = .ok c' w') : Visit.Below c' c := by
  cases c with
  | taking x k =>
    obtain ⟨x', w1, h1, h2⟩ := bind_ok h
    cases h2
    exact .taking (Body.Below.of_step (fun ⟨r, e⟩ => by subst e; cases ho) h1)
  | giving x k =>
    obtain ⟨x', w1, h1, h2⟩ := bind_ok h
    cases h2
    exact .giving (Body.Below.of_step (fun ⟨r, e⟩ => by subst e; cases ho) h1)

theorem Visit.Short.below {c c' : Visit X α} {k : Nat} (h : c.Short k) (hb : Visit.Below c' c) : ∃ j, k = j + 1 ∧ c'.Short j := by
  cases hb with
  | taking hb => exact Body.Short.below h hb
  | giving hb => exact Body.Short.below h hb

/-- what is left for a thread to do, inside a call or outside -/
inductive Left (X : BAlloc) (α : Type) where
  | out (p : Prog α)
  | inn (c : Visit X α)

/-- one step of a thread -/
inductive Left.Below : Left X α → Left X α → Prop
  | load {p k v} : Left.Below (.out (k v)) (.out (.load p k))
  | store {p v k} : Left.Below (.out k) (.out (.store p v k))
  | take {n k x} : Left.Below (.inn (.taking x k)) (.out (.alloc n k))
  | give {p n k x} : Left.Below (.inn (.giving x k)) (.out (.dealloc p n k))
  | taken {r k} : Left.Below (.out (k r.1)) (.inn (.taking (.ret r) k))
  | given {s k} : Left.Below (.out k) (.inn (.giving (.ret s) k))
  | inside {c c'} : Visit.Below c' c → Left.Below (.inn c') (.inn c)

theorem Left.acc_taking (x : Body false (Nat × X.S)) (k : Nat → Prog α) (hk : ∀ p, Acc (Left.Below (X := X)) (.out (k p))) :
    Acc (Left.Below (X := X)) (.inn (.taking x k)) := by
  induction Body.Below.wf x with
  | intro x _ ih =>
    refine ⟨_, fun y hy => ?_⟩
    cases hy with
    | taken => exact hk _
    | inside h => cases h with | taking h => exact ih _ h

theorem Left.acc_giving (x : Body true X.S) (k : Prog α) (hk : Acc (Left.Below (X := X)) (.out k)) : Acc (Left.Below (X := X)) (.inn (.giving x k)) := by
  induction Body.Below.wf x with
  | intro x _ ih =>
    refine ⟨_, fun y hy => ?_⟩
    cases hy with
    | given => exact hk
    | inside h => cases h with | giving h => exact ih _ h

theorem Left.acc_out (p : Prog α) : Acc (Left.Below (X := X)) (.out p) := by
  induction p with
  | ret a => exact ⟨_, fun y h => by cases h⟩
  | stop => exact ⟨_, fun y h => by cases h⟩
  | ub => exact ⟨_, fun y h => by cases h⟩
  | load p k ih => exact ⟨_, fun y h => by cases h; exact ih _⟩
  | store p v k ih => exact ⟨_, fun y h => by cases h; exact ih⟩
  | alloc n k ih => exact ⟨_, fun y h => by cases h; exact Left.acc_taking _ _ ih⟩
  | dealloc p n k ih => exact ⟨_, fun y h => by cases h; exact Left.acc_giving _ _ ih⟩

theorem Left.wf : WellFounded (Left.Below (X := X) (α := α)) := by
  refine ⟨fun a => ?_⟩
  cases a with
  | out p => exact Left.acc_out p
  | inn c =>
    cases c with
    | taking x k => exact Left.acc_taking x k fun p => Left.acc_out _
    | giving x k => exact Left.acc_giving x k (Left.acc_out _)

namespace Gang

/-- what is left for thread `i` to do -/
def left (T : Gang X α) (i : Nat) : Left X α :=
  match T.holds i with
  | some c => .inn c
  | none => .out (T.threads i)

theorem holds_inside {T : Gang X α} {i : Nat} {c : Visit X α} (h : T.inside = some (i, c)) : T.holds i = some c := by
  unfold holds; rw [h]; exact if_pos rfl

theorem holds_other {T : Gang X α} {i j : Nat} {c : Visit X α} (h : T.inside = some (i, c)) (hj : j ≠ i) : T.holds j = none := by
  unfold holds; rw [h]; exact if_neg (Ne.symm hj)

theorem holds_free {T : Gang X α} (h : T.inside = none) (j : Nat) : T.holds j = none := by
  unfold holds; rw [h]

/-- A step of thread `i`: it has nothing to do, it waits for the mutex, or it has less left to do, and the others as much as before. -/
theorem step_left {sys : Sys} {T T' : Gang X α} {i : Nat} {w w' : World} (h : T.step sys i w = .ok T' w') :
    (T' = T ∧ w' = w ∧ ((∃ a, T.threads i = .ret a) ∨ T.inside.isSome = true) ∧ T.holds i = none) ∨
    (Left.Below (T'.left i) (T.left i) ∧ (∀ j, j ≠ i → T'.left j = T.left j) ∧ ∀ j c, T'.inside = some (j, c) → T.inside = some (j, c) ∨ j = i) := by
  cases hh : T.holds i with
  | some c =>
    have hin := Gang.holds_self hh
    have hl : T.left i = .inn c := by unfold left; rw [hh]
    right
    cases ho : c.over with
    | some r =>
      rw [Gang.step_over hin ho] at h
      cases h
      have e1 : ∀ j, Gang.left { T.put i r.2 with st := r.1, inside := none } j = .out (if j = i then r.2 else T.threads j) := fun j => rfl
      refine ⟨?_, fun j hj => ?_, fun j c hc => by cases hc⟩
      · rw [e1, hl, if_pos rfl]
        cases c with
        | taking x k =>
          cases x <;> cases ho
          exact .taken
        | giving x k =>
          cases x <;> cases ho
          exact .given
      · rw [e1, if_neg hj]
        unfold left
        rw [holds_other hin hj]
    | none =>
      rw [Gang.step_inside hin ho] at h
      obtain ⟨c', w1, h1, h2⟩ := bind_ok h
      cases h2
      refine ⟨?_, fun j hj => ?_, fun j c hc => ?_⟩
      · have e1 : Gang.left { T with inside := some (i, c') } i = .inn c' := by
          unfold left; rw [holds_inside rfl]
        rw [e1, hl]
        exact .inside (Visit.Below.of_step ho h1)
      · unfold left
        rw [holds_other hin hj, holds_other (T := { T with inside := some (i, c') }) rfl hj]
      · cases hc; exact .inr rfl
  | none =>
    have hl : T.left i = .out (T.threads i) := by unfold left; rw [hh]
    unfold Gang.step at h
    rw [hh] at h
    have hput : ∀ (p : Prog α), (T.put i p).left i = .out p := fun p => by
      unfold left
      rw [show (T.put i p).holds i = none from hh]
      show Left.out (if i = i then p else T.threads i) = _
      rw [if_pos rfl]
    have hoth : ∀ (p : Prog α) j, j ≠ i → (T.put i p).left j = T.left j := fun p j hj => by
      unfold left
      rw [show (T.put i p).holds j = T.holds j from rfl]
      cases T.holds j with
      | some c => rfl
      | none =>
        show Left.out (if j = i then p else T.threads j) = _
        rw [if_neg hj]
    cases hp : T.threads i with
    | ret a =>
      rw [hp] at h
      cases h
      exact .inl ⟨rfl, rfl, .inl ⟨a, rfl⟩, rfl⟩
    | stop => rw [hp] at h; cases h
    | ub => rw [hp] at h; cases h
    | load p k =>
      rw [hp] at h
      obtain ⟨v, w1, _, h2⟩ := bind_ok h
      cases h2
      right
      refine ⟨?_, hoth _, fun j c hc => .inl hc⟩
      rw [hput, hl, hp]; exact .load
    | store p v k =>
      rw [hp] at h
      obtain ⟨_, w1, _, h2⟩ := bind_ok h
      cases h2
      right
      refine ⟨?_, hoth _, fun j c hc => .inl hc⟩
      rw [hput, hl, hp]; exact .store
    | alloc n k =>
      rw [hp] at h
      dsimp only at h
      by_cases hi : T.inside.isSome = true
      · rw [if_pos hi] at h
        cases h
        exact .inl ⟨rfl, rfl, .inr hi, rfl⟩
      · rw [if_neg hi] at h
        cases h
        have hin : T.inside = none := by
          cases e : T.inside with
          | none => rfl
          | some x => rw [e] at hi; exact absurd rfl hi
        right
        refine ⟨?_, fun j hj => ?_, fun j c hc => ?_⟩
        · rw [hl, hp]
          have e1 : Gang.left { T with inside := some (i, Visit.taking (X.alloc T.st n) k) } i = .inn (.taking (X.alloc T.st n) k) := by
            unfold left; rw [holds_inside rfl]
          rw [e1]; exact .take
        · unfold left
          rw [holds_free hin, holds_other (T := { T with inside := some (i, _) }) rfl hj]
        · cases hc; exact .inr rfl
    | dealloc p n k =>
      rw [hp] at h
      dsimp only at h
      by_cases hi : T.inside.isSome = true
      · rw [if_pos hi] at h
        cases h
        exact .inl ⟨rfl, rfl, .inr hi, rfl⟩
      · rw [if_neg hi] at h
        cases h
        have hin : T.inside = none := by
          cases e : T.inside with
          | none => rfl
          | some x => rw [e] at hi; exact absurd rfl hi
        right
        refine ⟨?_, fun j hj => ?_, fun j c hc => ?_⟩
        · rw [hl, hp]
          have e1 : Gang.left { T with inside := some (i, Visit.giving (X.dealloc T.st p n) k) } i = .inn (.giving (X.dealloc T.st p n) k) := by
            unfold left; rw [holds_inside rfl]
          rw [e1]; exact .give
        · unfold left
          rw [holds_free hin, holds_other (T := { T with inside := some (i, _) }) rfl hj]
        · cases hc; exact .inr rfl

/-! ### The mutex is held for a bounded number of steps -/

/-- the call under way has at most `k` accesses left -/
def Brief (k : Nat) (T : Gang X α) : Prop := ∀ i c, T.inside = some (i, c) → c.Short k

theorem step_brief {sys : Sys} {K : Nat} (ha : ∀ s n, (X.alloc s n).Short K) (hd : ∀ s p n, (X.dealloc s p n).Short K)
    {T T' : Gang X α} {i : Nat} {w w' : World} (hT : T.Brief K) (h : T.step sys i w = .ok T' w') : T'.Brief K := by
  cases hh : T.holds i with
  | some c =>
    have hin := Gang.holds_self hh
    cases ho : c.over with
    | some r =>
      rw [Gang.step_over hin ho] at h
      cases h
      intro j c hc; cases hc
    | none =>
      rw [Gang.step_inside hin ho] at h
      obtain ⟨c', w1, h1, h2⟩ := bind_ok h
      cases h2
      intro j c2 hc
      cases hc
      obtain ⟨j, rfl, hs⟩ := (hT i c hin).below (Visit.Below.of_step ho h1)
      cases c' <;> exact Body.Short.mono hs (by omega)
  | none =>
    unfold Gang.step at h
    rw [hh] at h
    cases hp : T.threads i with
    | ret a => rw [hp] at h; cases h; exact hT
    | stop => rw [hp] at h; cases h
    | ub => rw [hp] at h; cases h
    | load p k =>
      rw [hp] at h
      obtain ⟨v, w1, _, h2⟩ := bind_ok h
      cases h2
      exact hT
    | store p v k =>
      rw [hp] at h
      obtain ⟨_, w1, _, h2⟩ := bind_ok h
      cases h2
      exact hT
    | alloc n k =>
      rw [hp] at h
      dsimp only at h
      by_cases hi : T.inside.isSome = true
      · rw [if_pos hi] at h; cases h; exact hT
      · rw [if_neg hi] at h
        cases h
        intro j c hc
        cases hc
        exact ha _ _
    | dealloc p n k =>
      rw [hp] at h
      dsimp only at h
      by_cases hi : T.inside.isSome = true
      · rw [if_pos hi] at h; cases h; exact hT
      · rw [if_neg hi] at h
        cases h
        intro j c hc
        cases hc
        exact hd _ _ _

theorem run_brief {sys : Sys} {K : Nat} (ha : ∀ s n, (X.alloc s n).Short K) (hd : ∀ s p n, (X.dealloc s p n).Short K)
    {T T' : Gang X α} {is : List Nat} {w w' : World} (hT : T.Brief K) (h : T.run sys is w = .ok T' w') : T'.Brief K := by
  induction is generalizing T w with
  | nil => cases h; exact hT
  | cons i is ih =>
    obtain ⟨T1, w1, h1, h2⟩ := bind_ok (show (T.step sys i >>= fun T' => T'.run sys is) w = .ok T' w' from h)
    exact ih (step_brief ha hd hT h1) h2

/-- While another thread holds the mutex, a step does not change that. -/
theorem step_outside {sys : Sys} {T T' : Gang X α} {i j : Nat} {c : Visit X α} {w w' : World} (hin : T.inside = some (j, c)) (hij : i ≠ j)
    (h : T.step sys i w = .ok T' w') : T'.inside = some (j, c) := by
  have hh := holds_other hin hij
  have hi : T.inside.isSome = true := by rw [hin]; rfl
  unfold Gang.step at h
  rw [hh] at h
  cases hp : T.threads i with
  | ret a => rw [hp] at h; cases h; exact hin
  | stop => rw [hp] at h; cases h
  | ub => rw [hp] at h; cases h
  | load p k =>
    rw [hp] at h
    obtain ⟨v, w1, _, h2⟩ := bind_ok h
    cases h2
    exact hin
  | store p v k =>
    rw [hp] at h
    obtain ⟨_, w1, _, h2⟩ := bind_ok h
    cases h2
    exact hin
  | alloc n k => rw [hp] at h; dsimp only at h; rw [if_pos hi] at h; cases h; exact hin
  | dealloc p n k => rw [hp] at h; dsimp only at h; rw [if_pos hi] at h; cases h; exact hin

theorem release_soon {sys : Sys} {T : Gang X α} {j k : Nat} {c : Visit X α} {w : World} (hin : T.inside = some (j, c)) (hc : c.Short k)
    (is : List Nat) (hk : k < is.count j) :
    ∃ s1 s2, is = s1 ++ s2 ∧ ∀ T1 w1, T.run sys s1 w = .ok T1 w1 → T1.inside.isNone = true := by
  induction is generalizing T c k w with
  | nil => cases hk
  | cons i is ih =>
    cases hs : T.step sys i w with
    | oom w' => exact ⟨[i], is, rfl, fun T1 w1 h => by rw [Gang.run_cons_oom hs] at h; cases h⟩
    | ub =>
      refine ⟨[i], is, rfl, fun T1 w1 h => ?_⟩
      obtain ⟨T2, w2, h1, h2⟩ := bind_ok (show (T.step sys i >>= fun T' => T'.run sys []) w = .ok T1 w1 from h)
      rw [hs] at h1; cases h1
    | ok T' w' =>
      have next : ∀ (c' : Visit X α) k', T'.inside = some (j, c') → c'.Short k' → k' < is.count j →
          ∃ s1 s2, i :: is = s1 ++ s2 ∧ ∀ T1 w1, T.run sys s1 w = .ok T1 w1 → T1.inside.isNone = true := by
        intro c' k' h1 h2 h3
        obtain ⟨s1, s2, e, h⟩ := ih (w := w') h1 h2 h3
        refine ⟨i :: s1, s2, by rw [e]; rfl, fun T1 w1 hr => ?_⟩
        rw [Gang.run_cons_ok hs] at hr
        exact h T1 w1 hr
      by_cases hij : i = j
      · subst hij
        rw [List.count_cons_self] at hk
        cases ho : c.over with
        | some r =>
          refine ⟨[i], is, rfl, fun T1 w1 h => ?_⟩
          rw [Gang.run_cons_ok hs] at h
          cases h
          rw [Gang.step_over hin ho] at hs
          cases hs
          rfl
        | none =>
          have hs' := hs
          rw [Gang.step_inside hin ho] at hs
          obtain ⟨c', w1, h1, h2⟩ := bind_ok hs
          cases h2
          obtain ⟨k', rfl, hc'⟩ := hc.below (Visit.Below.of_step ho h1)
          exact next c' k' rfl hc' (by omega)
      · rw [List.count_cons_of_ne hij] at hk
        exact next c k (step_outside hin hij hs) hc hk

/-! ### Every fair schedule lets every thread finish -/

/-- the first threads have finished -/
def AllDone (m : Nat) (T : Gang X α) : Prop := T.inside = none ∧ ∀ i, i < m → ∃ a, T.threads i = .ret a

theorem turns_succ (σ : Nat → Nat) (k N : Nat) :
    ((List.range (N + 1)).map fun d => σ (k + d)) = σ k :: (List.range N).map fun d => σ (k + 1 + d) := by
  rw [List.range_succ_eq_map, List.map_cons, List.map_map]
  refine congrArg (σ k :: ·) (congrArg (fun f => (List.range N).map f) (funext fun d => ?_))
  show σ (k + (d + 1)) = σ (k + 1 + d)
  congr 1; omega

theorem finish_fair (sys : Sys) {m : Nat} (σ : Nat → Nat) (hm : ∀ k, σ k < m) (hfair : ∀ i, i < m → ∀ k, ∃ d, σ (k + d) = i)
    (T : Gang X α) (hin : ∀ j c, T.inside = some (j, c) → j < m) (w : World) (k : Nat) :
    ∃ N, ∀ T1 w1, T.run sys ((List.range N).map fun d => σ (k + d)) w = .ok T1 w1 → T1.AllDone m := by
  have hwf : WellFounded (Pi.Lex (· < ·) (fun {_ : Fin m} => Left.Below (X := X) (α := α))) := Pi.Lex.wellFounded _ fun _ => Left.wf
  generalize hL : (fun i : Fin m => T.left i) = L
  induction hwf.apply L generalizing T w k with
  | intro L _ ih =>
  subst hL
  by_cases hdone : T.AllDone m
  · exact ⟨0, fun T1 w1 h => by cases h; exact hdone⟩
  -- a thread that can move
  obtain ⟨i, him, hi⟩ : ∃ i, i < m ∧ ∀ (w2 w' : World), ¬ (T.step sys i w2 = .ok T w' ∧ w' = w2 ∧
      ((∃ a, T.threads i = .ret a) ∨ T.inside.isSome = true) ∧ T.holds i = none) := by
    cases e : T.inside with
    | some x =>
      obtain ⟨j, c⟩ := x
      refine ⟨j, hin j c e, fun w2 w' h => ?_⟩
      rw [holds_inside e] at h
      cases h.2.2.2
    | none =>
      have : ∃ i, i < m ∧ ¬ ∃ a, T.threads i = .ret a := by
        refine Classical.byContradiction fun hn => hdone ⟨e, fun i hi => ?_⟩
        exact Classical.byContradiction fun h => hn ⟨i, hi, h⟩
      obtain ⟨i, hi, hr⟩ := this
      refine ⟨i, hi, fun w2 w' h => ?_⟩
      rcases h.2.2.1 with h | h
      · exact hr h
      · cases h
  obtain ⟨d, hd⟩ := hfair i him k
  clear hdone
  induction d generalizing k with
  | zero =>
    cases hs : T.step sys (σ k) w with
    | ok T' w' =>
      rcases step_left hs with h | ⟨h1, h2, h3⟩
      · obtain ⟨rfl, hw, h⟩ := h
        have e : σ k = i := hd
        rw [e] at hs h
        exact absurd ⟨hs, hw, h⟩ (hi w w')
      · obtain ⟨N, hN⟩ := ih _ ⟨⟨σ k, hm k⟩, fun j hj => h2 j fun e => (Fin.ne_of_lt hj) (Fin.ext e), h1⟩ T'
          (fun j c hc => by
            rcases h3 j c hc with h | rfl
            · exact hin j c h
            · exact hm k) w' (k + 1) rfl
        refine ⟨N + 1, fun T1 w1 h => ?_⟩
        rw [turns_succ, Gang.run_cons_ok (T' := T') (w' := w') hs] at h
        exact hN T1 w1 h
    | oom w' =>
      refine ⟨1, fun T1 w1 h => ?_⟩
      rw [show (List.range 1).map (fun d => σ (k + d)) = [σ k] from rfl, Gang.run_cons_oom hs] at h
      cases h
    | ub =>
      refine ⟨1, fun T1 w1 h => ?_⟩
      obtain ⟨T2, w2, h1, h2⟩ := bind_ok (show (T.step sys (σ k) >>= fun T' => T'.run sys []) w = .ok T1 w1 from h)
      rw [hs] at h1; cases h1
  | succ d ihd =>
    cases hs : T.step sys (σ k) w with
    | ok T' w' =>
      have shift : ∀ N T1 w1, T.run sys ((List.range (N + 1)).map fun d => σ (k + d)) w = .ok T1 w1 →
          T'.run sys ((List.range N).map fun d => σ (k + 1 + d)) w' = .ok T1 w1 := by
        intro N T1 w1 h
        rw [turns_succ, Gang.run_cons_ok (T' := T') (w' := w') hs] at h
        exact h
      rcases step_left hs with h | ⟨h1, h2, h3⟩
      · obtain ⟨rfl, rfl, h⟩ := h
        obtain ⟨N, hN⟩ := ihd (k + 1) (by rw [← hd]; congr 1; omega)
        exact ⟨N + 1, fun T1 w1 h => hN T1 w1 (shift N T1 w1 h)⟩
      · obtain ⟨N, hN⟩ := ih _ ⟨⟨σ k, hm k⟩, fun j hj => h2 j fun e => (Fin.ne_of_lt hj) (Fin.ext e), h1⟩ T'
          (fun j c hc => by
            rcases h3 j c hc with h | rfl
            · exact hin j c h
            · exact hm k) w' (k + 1) rfl
        exact ⟨N + 1, fun T1 w1 h => hN T1 w1 (shift N T1 w1 h)⟩
    | oom w' =>
      refine ⟨1, fun T1 w1 h => ?_⟩
      rw [show (List.range 1).map (fun d => σ (k + d)) = [σ k] from rfl, Gang.run_cons_oom hs] at h
      cases h
    | ub =>
      refine ⟨1, fun T1 w1 h => ?_⟩
      obtain ⟨T2, w2, h1, h2⟩ := bind_ok (show (T.step sys (σ k) >>= fun T' => T'.run sys []) w = .ok T1 w1 from h)
      rw [hs] at h1; cases h1

end Gang
end

/-! ### The property -/

/-- **C103, calls are short.** However much memory is in use and whatever has been done with the allocator before, a call of `allocate` makes at
most `allocCost` accesses to memory and calls of `malloc`, and a call of `deallocate` at most `freeCost` accesses and calls of `free`: numbers that
depend on the type of the allocator alone. -/
theorem C103_calls_are_short (plat : Plat) (t : AllocTy) (s : (t.denoteB plat).S) (p n : Nat) :
    ((t.denoteB plat).alloc s n).Short (t.allocCost plat) ∧ (t.brief = true → ((t.denoteB plat).dealloc s p n).Short (t.freeCost plat)) :=
  ⟨t.short_alloc plat s n, fun h => t.short_dealloc plat h s p n⟩

/-- **C103, the mutex is held briefly.** Any number of threads share one `threaded` allocator. Whoever holds the mutex has given it back at the
latest when it has had as many turns as its call may make accesses, and one more; the other threads may do what they want meanwhile. -/
theorem C103_mutex_is_held_briefly (sys : Sys) (t : AllocTy) (hwf : t.WF) (hb : t.brief = true) (hlock : t.takesMutex = true) (b : Nat) (w : World)
    (hs : Storage w b t.size) (jobs : Nat → Job) (hj : ∀ i, (jobs i).Sane t) (sched : List Nat)
    (T : Gang (t.denoteB sys.plat) (List (List UInt8))) (w' : World)
    (hrun : gangPlay (t.denoteB sys.plat) sys b (fun i => (jobs i).prog) sched w = .ok T w') (j : Nat) (hin : (T.holds j).isSome = true)
    (later : List Nat) (hl : max (t.allocCost sys.plat) (t.freeCost sys.plat) < later.count j) :
    ∃ s1 s2, later = s1 ++ s2 ∧ match T.run sys s1 w' with
      | .ok T1 _ => T1.inside.isNone = true
      | .oom w1 => w1.failed = true
      | .ub => False := by
  obtain ⟨c, hc⟩ := Option.isSome_iff_exists.1 hin
  have hT : T.Brief (max (t.allocCost sys.plat) (t.freeCost sys.plat)) := by
    obtain ⟨s, w1, _, h2⟩ := bind_ok hrun
    exact Gang.run_brief (fun s n => (t.short_alloc sys.plat s n).left) (fun s p n => (t.short_dealloc sys.plat hb s p n).right)
      (fun i c h => by cases h) h2
  have hin' := Gang.holds_self hc
  obtain ⟨s1, s2, e, h⟩ := Gang.release_soon (sys := sys) (w := w') hin' (hT j c hin') later hl
  refine ⟨s1, s2, e, ?_⟩
  have key := C84_threads_inside_calls sys t hwf (t.stepwise_of_brief hb) hlock b w hs jobs hj (sched ++ s1)
  have e2 : gangPlay (t.denoteB sys.plat) sys b (fun i => (jobs i).prog) (sched ++ s1) w = T.run sys s1 w' := by
    obtain ⟨s, w1, h1, h2⟩ := bind_ok hrun
    exact (bind_of_ok h1).trans (Gang.run_append h2)
  rw [e2] at key
  cases hr : T.run sys s1 w' with
  | ok T1 w1 => exact h T1 w1 hr
  | oom w1 => rw [hr] at key; exact key
  | ub => rw [hr] at key; exact key

/-- **C103, everyone finishes.** `m` threads share one `threaded` allocator, each with containers of its own, and are scheduled in any way that lets
none of them wait for its next turn for ever; a thread whose turn it is while another one holds the mutex loses it, and nothing is said about who
gets the mutex next. After a while all of them have finished with the right results, and the mutex is free (or memory is exhausted). -/
theorem C103_everyone_finishes (sys : Sys) (t : AllocTy) (hwf : t.WF) (hst : t.stepwise = true) (hlock : t.takesMutex = true) (b : Nat) (w : World)
    (hs : Storage w b t.size) (jobs : Nat → Job) (hj : ∀ i, (jobs i).Sane t) (m : Nat) (turn : Nat → Nat) (hm : ∀ k, turn k < m)
    (hfair : ∀ i, i < m → ∀ k, ∃ k', k ≤ k' ∧ turn k' = i) :
    ∃ N, match gangPlay (t.denoteB sys.plat) sys b (fun i => (jobs i).prog) ((List.range N).map turn) w with
      | .ok T _ => T.inside.isNone = true ∧ ∀ i, i < m → ∃ xs, T.threads i = .ret xs ∧ (jobs i).Sees xs
      | .oom w' => w'.failed = true
      | .ub => False := by
  have key := C84_threads_inside_calls sys t hwf hst hlock b w hs jobs hj
  cases h0 : ((t.denoteB sys.plat).init b).seq sys w with
  | ok s w0 =>
    obtain ⟨N, hN⟩ := Gang.finish_fair sys turn hm
      (fun i hi k => by obtain ⟨k', h1, h2⟩ := hfair i hi k; exact ⟨k' - k, by rw [← h2]; congr 1; omega⟩)
      (⟨s, fun i => (jobs i).prog, none⟩ : Gang (t.denoteB sys.plat) _) (fun j c h => by cases h) w0 0
    refine ⟨N, ?_⟩
    have key := key ((List.range N).map turn)
    have e : gangPlay (t.denoteB sys.plat) sys b (fun i => (jobs i).prog) ((List.range N).map turn) w =
        Gang.run sys (⟨s, fun i => (jobs i).prog, none⟩ : Gang (t.denoteB sys.plat) _) ((List.range N).map turn) w0 := bind_of_ok h0
    cases hr : gangPlay (t.denoteB sys.plat) sys b (fun i => (jobs i).prog) ((List.range N).map turn) w with
    | ok T w' =>
      rw [hr] at key
      obtain ⟨h1, h2⟩ := hN T w' (by rw [← hr, e]; congr 2; funext d; rw [Nat.zero_add])
      refine ⟨by rw [h1]; rfl, fun i hi => ?_⟩
      obtain ⟨xs, hx⟩ := h2 i hi
      exact ⟨xs, hx, key.1 i xs hx⟩
    | oom w' => rw [hr] at key; exact key
    | ub => rw [hr] at key; exact key
  | oom w0 =>
    refine ⟨0, ?_⟩
    have key := key []
    cases hr : gangPlay (t.denoteB sys.plat) sys b (fun i => (jobs i).prog) ((List.range 0).map turn) w with
    | ok T w' =>
      obtain ⟨s, w1, h1, _⟩ := bind_ok hr
      rw [h0] at h1; cases h1
    | oom w' => exact (by rw [show ((List.range 0).map turn) = [] from rfl] at hr; rw [hr] at key; exact key)
    | ub => exact (by rw [show ((List.range 0).map turn) = [] from rfl] at hr; rw [hr] at key; exact key)
  | ub =>
    have key := key []
    have e : gangPlay (t.denoteB sys.plat) sys b (fun i => (jobs i).prog) [] w = .ub := by
      show (((t.denoteB sys.plat).init b).seq sys >>= _) w = _
      rw [M.bind_apply, h0]
    rw [e] at key
    exact key.elim

/-! ### Concrete instances -/

example : gangTy.brief = true ∧ (gangTy.allocCost .direct, gangTy.freeCost .direct) = (136, 137) := by decide

/-- `threaded<overflow<cascading<linear_allocator<1024>>>>` -/
example : (AllocTy.threaded (.overflow (.cascading (.linear 1024)))).brief = true ∧
    (AllocTy.threaded (.overflow (.cascading (.linear 1024)))).allocCost .manual = 2 * 9 + 128 := by decide

/-- Two threads in turn: a fair schedule. -/
example : (∀ k, k % 2 < 2) ∧ ∀ i, i < 2 → ∀ k, ∃ k', k ≤ k' ∧ k' % 2 = i :=
  ⟨fun k => Nat.mod_lt _ (by decide), fun i hi k => ⟨2 * k + i, by omega, by omega⟩⟩

/-- The bound is reached: a `freelist` writes the 8 bytes of a link. -/
example : (AllocTy.freelist 0 64 .mallocator).freeCost .direct = 8 ∧
    ¬ (((AllocTy.freelist 0 64 .mallocator).denoteB .direct).dealloc ⟨(), 0⟩ 4096 32).Short 7 := by
  refine ⟨rfl, fun h => ?_⟩
  obtain ⟨a, ha, b, hb, c, hc, d, hd, e, he, f, hf, g, hg, i, hi, _⟩ :
    ((Body.writePtr 4096 0 >>= fun _ => pure ⟨(), 4096⟩ : Body true (Freelist.St Unit))).Short 7 := h
  omega

end KTL
