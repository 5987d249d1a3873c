import Verif.Spec.Lifo
import Verif.Spec.Header
import Verif.Alloc.Debug

/- Two runs side by side, in memories that have the same shape but may have different contents. Specification of C86
(`Heap.Alike`, `World.Alike`, `Sys.Alike`) and proof machinery. -/
namespace KTL

/-- the same addresses are allocated, the same `malloc` blocks exist; the contents may differ -/
def Heap.Alike (h h' : Heap) : Prop := (∀ x, (h.b x).isSome = (h'.b x).isSome) ∧ h.t = h'.t

/-- worlds that differ in nothing but the contents of memory -/
structure World.Alike (w w' : World) : Prop where
  heap : w.heap.Alike w'.heap
  tick : w.tick = w'.tick
  failed : w.failed = w'.failed
  out : w.out = w'.out
  log : w.log = w'.log

/-- Two C libraries that choose the same addresses, whatever the contents of memory. They may fill the blocks with
different bytes. -/
structure Sys.Alike (sys sys' : Sys) : Prop where
  plat : sys.plat = sys'.plat
  malloc : ∀ k h h' n, h.Alike h' → (sys.malloc k h n).map Prod.fst = (sys'.malloc k h' n).map Prod.fst

/-- The `malloc` blocks are there and do not overlap. -/
def Heap.Tidy (h : Heap) : Prop :=
  (∀ a n, h.t a = some n → ∀ x, a ≤ x → x < a + n → (h.b x).isSome = true) ∧
  ∀ a n a' n', h.t a = some n → h.t a' = some n' → a ≠ a' → ∀ x, a ≤ x → x < a + n → ¬ (a' ≤ x ∧ x < a' + n')

/-! ### Machinery -/

/-- the relation between the two worlds: with `τ`, that the `malloc` blocks do not overlap -/
def World.Close (τ : Prop) (w w' : World) : Prop := w.Alike w' ∧ (τ → w.heap.Tidy)

theorem Heap.Tidy.malloc {h : Heap} (ht : h.Tidy) {a n : Nat} {c : Nat → UInt8} {k : Nat}
    (hv : 0 < a ∧ a % k = 0 ∧ a + n < W64 ∧ h.t a = none ∧ ∀ x, a ≤ x → x < a + n → h.b x = none) :
    Heap.Tidy ⟨fun x => if a ≤ x ∧ x < a + n then some (c (x - a)) else h.b x, fun x => if x = a then some n else h.t x⟩ := by
  obtain ⟨_, _, _, h1, h2⟩ := hv
  refine ⟨fun b m hb x l1 l2 => ?_, fun b m b' m' hb hb' hne x l1 l2 => ?_⟩
  · simp only at hb ⊢
    split
    · rfl
    · rename_i hx
      split at hb
      · rename_i e; subst e; cases hb; exact (hx ⟨l1, l2⟩).elim
      · exact ht.1 b m hb x l1 l2
  · simp only at hb hb'
    rintro ⟨l3, l4⟩
    split at hb
    · rename_i e; subst e; cases hb
      split at hb'
      · rename_i e; exact hne e.symm
      · have := ht.1 b' m' hb' x l3 l4
        rw [h2 x l1 l2] at this; cases this
    · split at hb'
      · rename_i e; subst e; cases hb'
        have := ht.1 b m hb x l1 l2
        rw [h2 x l3 l4] at this; cases this
      · exact ht.2 b m b' m' hb hb' hne x l1 l2 ⟨l3, l4⟩

theorem Heap.Tidy.free {h : Heap} (ht : h.Tidy) {a n : Nat} (ha : h.t a = some n) :
    Heap.Tidy ⟨fun x => if a ≤ x ∧ x < a + n then none else h.b x, fun x => if x = a then none else h.t x⟩ := by
  refine ⟨fun b m hb x l1 l2 => ?_, fun b m b' m' hb hb' hne x l1 l2 => ?_⟩
  · simp only at hb ⊢
    split at hb
    · cases hb
    · rename_i hne
      rw [if_neg (ht.2 b m a n hb ha hne x l1 l2)]
      exact ht.1 b m hb x l1 l2
  · simp only at hb hb'
    split at hb
    · cases hb
    · split at hb'
      · cases hb'
      · exact ht.2 b m b' m' hb hb' hne x l1 l2

variable {τ : Prop}

/-- `c` and `d` do the same up to the contents of memory, unless one of them has undefined behaviour. -/
def Twins (τ : Prop) {α β : Type} (R : α → β → Prop) (c : M α) (d : M β) : Prop := ∀ w w', World.Close τ w w' →
  match c w, d w' with
  | .ub, _ => True
  | _, .ub => True
  | .ok a w1, .ok b w1' => R a b ∧ World.Close τ w1 w1'
  | .oom w1, .oom w1' => World.Close τ w1 w1'
  | _, _ => False

namespace Twins
variable {α β γ δ : Type} {R : α → β → Prop} {S : γ → δ → Prop}

theorem pure {a : α} {b : β} (h : R a b) : Twins τ R (Pure.pure a) (Pure.pure b) := fun _ _ hw => ⟨h, hw⟩

theorem left {d : M β} : Twins τ R M.ub d := by intro w w' _; unfold M.ub; trivial

theorem right {c : M α} : Twins τ R c M.ub := by
  intro w w' _
  unfold M.ub
  cases c w <;> trivial

theorem bind {c : M α} {d : M β} {k : α → M γ} {l : β → M δ} (h : Twins τ R c d) (hk : ∀ a b, R a b → Twins τ S (k a) (l b)) :
    Twins τ S (c >>= k) (d >>= l) := by
  intro w w' hw
  have := h w w' hw
  rw [M.bind_apply, M.bind_apply]
  revert this
  cases c w with
  | ub => intro _; trivial
  | ok a w1 =>
    cases d w' with
    | ub => intro _; simp only; cases k a w1 <;> trivial
    | ok b w1' => rintro ⟨h1, h2⟩; exact hk a b h1 w1 w1' h2
    | oom _ => exact False.elim
  | oom w1 =>
    cases d w' with
    | ub => intro _; trivial
    | ok b w1' => exact False.elim
    | oom _ => exact id

theorem mono {R' : α → β → Prop} {c : M α} {d : M β} (h : Twins τ R c d) (hR : ∀ a b, R a b → R' a b) : Twins τ R' c d := by
  intro w w' hw
  have := h w w' hw
  revert this
  cases c w <;> cases d w' <;> first | exact id | exact fun h => ⟨hR _ _ h.1, h.2⟩

theorem ite {p : Prop} [Decidable p] {c c' : M α} {d d' : M β} (h1 : p → Twins τ R c d) (h2 : ¬ p → Twins τ R c' d') :
    Twins τ R (if p then c else c') (if p then d else d') := by
  by_cases h : p
  · rw [if_pos h, if_pos h]; exact h1 h
  · rw [if_neg h, if_neg h]; exact h2 h

theorem assert {p q : Bool} {k : M α} {l : M β} (h : p = true → q = true → Twins τ R k l) :
    Twins τ R (M.assert p >>= fun _ => k) (M.assert q >>= fun _ => l) := by
  cases p with
  | false => exact left
  | true =>
    cases q with
    | false => exact right
    | true => exact h rfl rfl

theorem load (a : Nat) : Twins τ (fun _ _ => True) (M.load a) (M.load a) := by
  intro w w' hw
  unfold M.load
  cases w.heap.b a <;> cases w'.heap.b a <;> first | trivial | exact ⟨trivial, hw⟩

theorem store (a : Nat) (v v' : UInt8) : Twins τ (fun _ _ => True) (M.store a v) (M.store a v') := by
  intro w w' hw
  unfold M.store
  cases h1 : w.heap.b a <;> cases h2 : w'.heap.b a <;> try trivial
  obtain ⟨hw, ht⟩ := hw
  refine ⟨trivial, ⟨⟨fun x => ?_, hw.heap.2⟩, hw.tick, hw.failed, hw.out, hw.log⟩, fun hτ => ⟨fun b n hb x l1 l2 => ?_, (ht hτ).2⟩⟩
  · simp only
    split
    · rfl
    · exact hw.heap.1 x
  · simp only
    split
    · rfl
    · exact (ht hτ).1 b n hb x l1 l2

theorem print (m : Msg) : Twins τ (fun _ _ => True) (M.print m) (M.print m) :=
  fun _ _ ⟨hw, ht⟩ => ⟨trivial, ⟨hw.heap, hw.tick, hw.failed, by simp only [hw.out], hw.log⟩, ht⟩

theorem event (e : Ev) : Twins τ (fun _ _ => True) (M.event e) (M.event e) :=
  fun _ _ ⟨hw, ht⟩ => ⟨trivial, ⟨hw.heap, hw.tick, hw.failed, hw.out, by simp only [hw.log]⟩, ht⟩

theorem ifThen {p : Prop} [Decidable p] {x : M Unit} {y : M Unit} (h : Twins τ (fun _ _ => True) x y) :
    Twins τ (fun _ _ => True) (M.ifThen p x) (M.ifThen p y) :=
  ite (fun _ => h) (fun _ => pure trivial)

theorem readBytes (p n : Nat) : Twins τ (fun x y => x.length = n ∧ y.length = n) (M.readBytes p n) (M.readBytes p n) := by
  induction n generalizing p with
  | zero => exact pure ⟨rfl, rfl⟩
  | succ n ih =>
    refine bind (load p) fun x y _ => bind (ih (p + 1)) fun xs ys h => pure ?_
    simp [h]

theorem writeBytes (p : Nat) (bs bs' : List UInt8) (h : bs.length = bs'.length) :
    Twins τ (fun _ _ => True) (M.writeBytes p bs) (M.writeBytes p bs') := by
  induction bs generalizing p bs' with
  | nil =>
    cases bs' with
    | nil => exact pure trivial
    | cons _ _ => simp at h
  | cons x xs ih =>
    cases bs' with
    | nil => simp at h
    | cons y ys => exact bind (store p x y) fun _ _ _ => ih (p + 1) ys (by simpa using h)

theorem readPtr (p : Nat) : Twins τ (fun _ _ => True) (M.readPtr p) (M.readPtr p) :=
  bind (readBytes p 8) fun _ _ _ => pure trivial

theorem writePtr (p v v' : Nat) : Twins τ (fun _ _ => True) (M.writePtr p v) (M.writePtr p v') :=
  writeBytes p _ _ rfl

theorem nullDeref : Twins τ R M.nullDeref M.nullDeref := by
  intro w w' hw
  unfold M.nullDeref
  rw [← hw.1.failed]
  by_cases h : w.failed
  · simp only [h, if_true]; exact hw
  · simp [h]

theorem cMalloc {sys sys' : Sys} (h : sys.Alike sys') (n : Nat) : Twins τ Eq (KTL.cMalloc sys n) (KTL.cMalloc sys' n) := by
  rintro w w' ⟨hw, ht⟩
  have := h.malloc w.tick w.heap w'.heap n hw.heap
  unfold KTL.cMalloc
  rw [← hw.tick]
  cases h1 : sys.malloc w.tick w.heap n with
  | none =>
    cases h2 : sys'.malloc w.tick w'.heap n with
    | none => exact ⟨rfl, ⟨hw.heap, by simp only [hw.tick], rfl, hw.out, hw.log⟩, ht⟩
    | some y => rw [h1, h2] at this; simp at this
  | some x =>
    cases h2 : sys'.malloc w.tick w'.heap n with
    | none => rw [h1, h2] at this; simp at this
    | some y =>
      rw [h1, h2] at this
      obtain ⟨a, c⟩ := x
      obtain ⟨a', c'⟩ := y
      obtain rfl : a = a' := by simpa using this
      refine ⟨rfl, ⟨⟨fun x => ?_, ?_⟩, by simp only [hw.tick], hw.failed, hw.out, hw.log⟩, fun hτ => ?_⟩
      · simp only
        split
        · rfl
        · exact hw.heap.1 x
      · simp only [hw.heap.2]
      · exact (ht hτ).malloc (sys.valid _ _ _ _ _ h1)

theorem cFree (a : Nat) : Twins τ (fun _ _ => True) (KTL.cFree a) (KTL.cFree a) := by
  rintro w w' ⟨hw, ht⟩
  unfold KTL.cFree
  by_cases ha : a = 0
  · simp only [ha, if_true]; exact ⟨trivial, hw, ht⟩
  simp only [ha, if_false, ← hw.heap.2]
  cases hta : w.heap.t a with
  | none => trivial
  | some n =>
    have e : w'.heap.hasBytes a n = w.heap.hasBytes a n := by
      unfold Heap.hasBytes
      simp only [hw.heap.1]
    simp only [e]
    by_cases hb : w.heap.hasBytes a n
    · simp only [hb, if_true]
      refine ⟨trivial, ⟨⟨fun x => ?_, rfl⟩, hw.tick, hw.failed, hw.out, hw.log⟩, fun hτ => (ht hτ).free hta⟩
      simp only
      split
      · rfl
      · exact hw.heap.1 x
    · simp [hb]

end Twins

/-- `owns` and `max_size` answer the same in related states -/
def TwinFun {S T X : Type} (R : S → T → Prop) (f : Option (S → X)) (g : Option (T → X)) : Prop :=
  match f, g with
  | some f, some g => ∀ s t, R s t → f s = g t
  | none, none => True
  | _, _ => False

def TwinOpt (τ : Prop) {S T : Type} (R : S → T → Prop) (c : Option (S → Nat → M S)) (d : Option (T → Nat → M T)) : Prop :=
  match c, d with
  | some c, some d => ∀ s t, R s t → ∀ p, Twins τ R (c s p) (d t p)
  | none, none => True
  | _, _ => False

/-- Two classes that do the same up to the contents of memory, in states related by `R`. -/
structure Twin (τ : Prop) (A B : Allocator) (R : A.St → B.St → Prop) : Prop where
  size : A.objSize = B.objSize
  init : ∀ b, Twins τ R (A.init b) (B.init b)
  alloc : ∀ s t, R s t → ∀ n, Twins τ (fun r q => r.1 = q.1 ∧ R r.2 q.2) (A.alloc s n) (B.alloc t n)
  dealloc : ∀ s t, R s t → ∀ p n, Twins τ R (A.dealloc s p n) (B.dealloc t p n)
  owns : TwinFun R A.owns B.owns
  maxSize : TwinFun R A.maxSize B.maxSize
  construct : TwinOpt τ R A.construct B.construct
  destroy : TwinOpt τ R A.destroy B.destroy
  fini : ∀ s t, R s t → Twins τ (fun _ _ => True) (A.fini s) (B.fini t)

theorem TwinFun.map {S T S' T' X : Type} {R : S → T → Prop} {R' : S' → T' → Prop} {f : Option (S → X)} {g : Option (T → X)}
    {k : S' → S} {l : T' → T} (h : TwinFun R f g) (hk : ∀ s t, R' s t → R (k s) (l t)) :
    TwinFun R' (f.map fun f s => f (k s)) (g.map fun g s => g (l s)) := by
  cases f <;> cases g <;> first | exact h.elim | trivial | exact fun s t hr => h _ _ (hk s t hr)

theorem TwinOpt.map {S T S' T' : Type} {R : S → T → Prop} {R' : S' → T' → Prop} {c : Option (S → Nat → M S)} {d : Option (T → Nat → M T)}
    {k : (S → Nat → M S) → S' → Nat → M S'} {l : (T → Nat → M T) → T' → Nat → M T'} (h : TwinOpt τ R c d)
    (hk : ∀ c d, (∀ s t, R s t → ∀ p, Twins τ R (c s p) (d t p)) → ∀ s t, R' s t → ∀ p, Twins τ R' (k c s p) (l d t p)) :
    TwinOpt τ R' (c.map k) (d.map l) := by
  cases c <;> cases d <;> first | exact h.elim | trivial | exact fun s t hr p => hk _ _ h s t hr p

theorem Twin.ownsD {A B : Allocator} {R : A.St → B.St → Prop} (h : Twin τ A B R) (s : A.St) (t : B.St) (hr : R s t) (p : Nat) :
    A.ownsD s p = B.ownsD t p := by
  have := h.owns
  unfold Allocator.ownsD
  revert this
  cases A.owns <;> cases B.owns <;> intro h
  · rfl
  · exact h.elim
  · exact h.elim
  · exact congrFun (h s t hr) p

theorem null_twin : Twin τ nullAlloc nullAlloc (fun _ _ => True) where
  size := rfl
  init _ := Twins.pure trivial
  alloc _ _ _ _ := Twins.pure ⟨rfl, trivial⟩
  dealloc _ _ _ _ _ := Twins.pure trivial
  owns := fun _ _ _ => rfl
  maxSize := trivial
  construct := trivial
  destroy := trivial
  fini _ _ _ := Twins.pure trivial

theorem linear_twin (S : Nat) : Twin τ (linear S) (linear S) Eq where
  size := rfl
  init _ := Twins.pure rfl
  alloc := by rintro s _ rfl n; exact Twins.pure ⟨rfl, rfl⟩
  dealloc := by rintro s _ rfl p n; exact Twins.pure rfl
  owns := by rintro s _ rfl; rfl
  maxSize := by rintro s _ rfl; rfl
  construct := trivial
  destroy := trivial
  fini _ _ _ := Twins.pure trivial

theorem stack_twin (S : Nat) : Twin τ (stackAlloc S) (stackAlloc S) Eq where
  size := rfl
  init _ := Twins.pure rfl
  alloc := by rintro s _ rfl n; exact Twins.pure ⟨rfl, rfl⟩
  dealloc := by rintro s _ rfl p n; exact Twins.pure rfl
  owns := by rintro s _ rfl; rfl
  maxSize := by rintro s _ rfl; rfl
  construct := trivial
  destroy := trivial
  fini _ _ _ := Twins.pure trivial

section Malloc
variable {sys sys' : Sys} (h : sys.Alike sys') (hp : sys.plat = .manual → τ)

include h in
theorem alignedMalloc_twins (n : Nat) : Twins τ Eq (alignedMalloc sys n) (alignedMalloc sys' n) := by
  unfold alignedMalloc
  rw [← h.plat]
  cases sys.plat with
  | direct => exact Twins.cMalloc h n
  | manual =>
    refine Twins.bind (Twins.cMalloc h _) ?_
    rintro p _ rfl
    exact Twins.ite (fun _ => Twins.bind (Twins.writePtr _ _ _) fun _ _ _ => Twins.pure rfl) fun _ => Twins.pure rfl

/-- The check pins down the `malloc` block, the blocks being disjoint. -/
theorem checkHeader_twins (hτ : τ) (p q q' : Nat) {α β : Type} {R : α → β → Prop} {k : M α} {l : M β} (hk : q = q' → Twins τ R k l) :
    Twins τ R (checkHeader p q >>= fun _ => k) (checkHeader p q' >>= fun _ => l) := by
  by_cases he : q = q'
  · subst he
    refine Twins.bind (R := fun _ _ => True) ?_ fun _ _ _ => hk rfl
    intro w w' hw
    unfold checkHeader
    rw [← hw.1.heap.2]
    by_cases h : q + 8 ≤ p ∧ p ≤ q + 16 ∧ 16 ≤ (w.heap.t q).getD 0
    · simp only [h, and_self, if_true]; exact ⟨trivial, hw⟩
    · rw [if_neg h]; trivial
  · intro w w' hw
    rw [M.bind_apply, M.bind_apply]
    have : checkHeader p q w = .ub ∨ checkHeader p q' w' = .ub := by
      refine Classical.byContradiction fun hn => ?_
      obtain ⟨n1, n2⟩ := not_or.1 hn
      unfold checkHeader at n1 n2
      have c1 : q + 8 ≤ p ∧ p ≤ q + 16 ∧ 16 ≤ (w.heap.t q).getD 0 := Classical.byContradiction fun h => n1 (if_neg h)
      have c2 : q' + 8 ≤ p ∧ p ≤ q' + 16 ∧ 16 ≤ (w'.heap.t q').getD 0 := Classical.byContradiction fun h => n2 (if_neg h)
      rw [← hw.1.heap.2] at c2
      cases t1 : w.heap.t q with
      | none => rw [t1] at c1; simp at c1
      | some m =>
        cases t2 : w.heap.t q' with
        | none => rw [t2] at c2; simp at c2
        | some m' =>
          rw [t1] at c1
          rw [t2] at c2
          simp only [Option.getD_some] at c1 c2
          rcases Nat.lt_or_gt_of_ne he with hlt | hlt
          · exact (hw.2 hτ).2 q m q' m' t1 t2 he q' (by omega) (by omega) ⟨by omega, by omega⟩
          · exact (hw.2 hτ).2 q m q' m' t1 t2 he q (by omega) (by omega) ⟨by omega, by omega⟩
    rcases this with h | h
    · rw [h]; trivial
    · rw [h]
      dsimp only
      split <;> trivial

include h hp in
theorem alignedFreeG_twins (p : Nat) : Twins τ (fun _ _ => True) (alignedFreeG sys p) (alignedFreeG sys' p) := by
  unfold alignedFreeG
  rw [← h.plat]
  cases hpl : sys.plat with
  | direct => exact Twins.cFree p
  | manual =>
    refine Twins.ite (fun _ => ?_) fun _ => Twins.pure trivial
    refine Twins.bind (Twins.readPtr _) fun q q' _ => checkHeader_twins (hp hpl) p q q' ?_
    rintro rfl
    exact Twins.cFree q

include h in
theorem alignedNew_twins {α β : Type} {R : α → β → Prop} (n : Nat) {c : Nat → M α} {d : Nat → M β} (hc : ∀ p, Twins τ R (c p) (d p)) :
    Twins τ (fun r q => r.1 = q.1 ∧ R r.2 q.2) (alignedNew sys n c) (alignedNew sys' n d) := by
  refine Twins.bind (alignedMalloc_twins h n) ?_
  rintro p _ rfl
  exact Twins.ite (fun _ => Twins.nullDeref) fun _ => Twins.bind (hc p) fun a b hr => Twins.pure ⟨rfl, hr⟩

include h hp in
theorem alignedDeleteG_twins (p : Nat) {c d : M Unit} (hc : Twins τ (fun _ _ => True) c d) :
    Twins τ (fun _ _ => True) (alignedDeleteG sys p c) (alignedDeleteG sys' p d) :=
  Twins.bind hc fun _ _ _ => alignedFreeG_twins h hp p

include h hp in
theorem mallocatorG_twin : Twin τ (mallocatorG sys) (mallocatorG sys') (fun _ _ => True) where
  size := rfl
  init _ := Twins.pure trivial
  alloc _ _ _ n := Twins.bind (alignedMalloc_twins h n) fun _ _ e => Twins.pure ⟨e, trivial⟩
  dealloc _ _ _ p _ := alignedFreeG_twins h hp p
  owns := trivial
  maxSize := trivial
  construct := trivial
  destroy := trivial
  fini _ _ _ := Twins.pure trivial

end Malloc

/-! ### Combinators -/

section Two
variable {P P' F F' : Allocator} {R : P.St → P'.St → Prop} {S : F.St → F'.St → Prop}

/-- both parts are related -/
def Both (R : P.St → P'.St → Prop) (S : F.St → F'.St → Prop) (s : P.St × F.St) (t : P'.St × F'.St) : Prop := R s.1 t.1 ∧ S s.2 t.2

theorem route2_twin (hP : Twin τ P P' R) {cP cF dP dF} (h1 : TwinOpt τ R cP dP) (h2 : TwinOpt τ S cF dF) (ev : Nat → Ev) :
    TwinOpt τ (Both R S) (route2 P F cP cF ev) (route2 P' F' dP dF ev) := by
  have hdirect : ∀ (s : P.St × F.St) (t : P'.St × F'.St), Both R S s t → ∀ p,
      Twins τ (Both R S) (do M.event (ev p); pure s) (do M.event (ev p); pure t) :=
    fun s t hr p => Twins.bind (Twins.event _) fun _ _ _ => Twins.pure hr
  unfold route2
  cases cP with
  | none =>
    cases dP with
    | some _ => exact h1.elim
    | none =>
      cases cF with
      | none =>
        cases dF with
        | some _ => exact h2.elim
        | none => exact trivial
      | some c =>
        cases dF with
        | none => exact h2.elim
        | some d =>
          intro s t hr p
          simp only [hP.ownsD s.1 t.1 hr.1 p]
          cases P'.ownsD t.1 p with
          | true => exact hdirect s t hr p
          | false => exact Twins.bind (h2 s.2 t.2 hr.2 p) fun _ _ h => Twins.pure ⟨hr.1, h⟩
  | some c =>
    cases dP with
    | none => exact h1.elim
    | some d =>
      cases cF with
      | none =>
        cases dF with
        | some _ => exact h2.elim
        | none =>
          intro s t hr p
          simp only [hP.ownsD s.1 t.1 hr.1 p]
          cases P'.ownsD t.1 p with
          | true => exact Twins.bind (h1 s.1 t.1 hr.1 p) fun _ _ h => Twins.pure ⟨h, hr.2⟩
          | false => exact hdirect s t hr p
      | some c' =>
        cases dF with
        | none => exact h2.elim
        | some d' =>
          intro s t hr p
          simp only [hP.ownsD s.1 t.1 hr.1 p]
          cases P'.ownsD t.1 p with
          | true => exact Twins.bind (h1 s.1 t.1 hr.1 p) fun _ _ h => Twins.pure ⟨h, hr.2⟩
          | false => exact Twins.bind (h2 s.2 t.2 hr.2 p) fun _ _ h => Twins.pure ⟨hr.1, h⟩

theorem owns2_twin (hP : Twin τ P P' R) (hF : Twin τ F F' S) : TwinFun (Both R S) (owns2 P F) (owns2 P' F') := by
  have h1 := hP.owns
  have h2 := hF.owns
  unfold owns2
  revert h1 h2
  cases P.owns <;> cases P'.owns <;> cases F.owns <;> cases F'.owns <;> intro h1 h2 <;>
    first | exact h1.elim | exact h2.elim | trivial | skip
  intro s t hr
  funext p
  simp only [h1 _ _ hr.1, h2 _ _ hr.2]

theorem maxSize2_twin (hP : Twin τ P P' R) (hF : Twin τ F F' S) : TwinFun (Both R S) (maxSize2 P F) (maxSize2 P' F') := by
  have h1 := hP.maxSize
  have h2 := hF.maxSize
  unfold maxSize2
  revert h1 h2
  cases P.maxSize <;> cases P'.maxSize <;> cases F.maxSize <;> cases F'.maxSize <;> intro h1 h2 <;>
    first | exact h1.elim | exact h2.elim | trivial | skip
  intro s t hr
  simp only [h1 _ _ hr.1, h2 _ _ hr.2]

theorem fallback_twin (hP : Twin τ P P' R) (hF : Twin τ F F' S) : Twin τ (fallback P F) (fallback P' F') (Both R S) where
  size := by simp only [fallback, hP.size, hF.size]
  init b := by
    simp only [fallback, hP.size]
    exact Twins.bind (hP.init b) fun _ _ h1 => Twins.bind (hF.init _) fun _ _ h2 => Twins.pure ⟨h1, h2⟩
  alloc s t hr n := by
    refine Twins.bind (hP.alloc s.1 t.1 hr.1 n) fun r q ⟨e, h1⟩ => ?_
    rw [e]
    exact Twins.ite (fun _ => Twins.bind (hF.alloc s.2 t.2 hr.2 n) fun r q h2 => Twins.pure ⟨h2.1, h1, h2.2⟩)
      fun _ => Twins.pure ⟨rfl, h1, hr.2⟩
  dealloc s t hr p n := by
    simp only [fallback, hP.ownsD s.1 t.1 hr.1 p]
    exact Twins.ite (fun _ => Twins.bind (hP.dealloc _ _ hr.1 p n) fun _ _ h => Twins.pure ⟨h, hr.2⟩)
      (fun _ => Twins.bind (hF.dealloc _ _ hr.2 p n) fun _ _ h => Twins.pure ⟨hr.1, h⟩)
  owns := owns2_twin hP hF
  maxSize := maxSize2_twin hP hF
  construct := route2_twin hP hP.construct hF.construct _
  destroy := route2_twin hP hP.destroy hF.destroy _
  fini s t hr := Twins.bind (hF.fini _ _ hr.2) fun _ _ _ => hP.fini _ _ hr.1

theorem segragator_twin (T : Nat) (hP : Twin τ P P' R) (hF : Twin τ F F' S) :
    Twin τ (segragator T P F) (segragator T P' F') (Both R S) where
  size := by simp only [segragator, hP.size, hF.size]
  init b := by
    simp only [segragator, hP.size]
    exact Twins.bind (hP.init b) fun _ _ h1 => Twins.bind (hF.init _) fun _ _ h2 => Twins.pure ⟨h1, h2⟩
  alloc s t hr n :=
    Twins.ite (fun _ => Twins.bind (hP.alloc _ _ hr.1 n) fun _ _ h => Twins.pure ⟨h.1, h.2, hr.2⟩)
      (fun _ => Twins.bind (hF.alloc _ _ hr.2 n) fun _ _ h => Twins.pure ⟨h.1, hr.1, h.2⟩)
  dealloc s t hr p n :=
    Twins.ite (fun _ => Twins.bind (hP.dealloc _ _ hr.1 p n) fun _ _ h => Twins.pure ⟨h, hr.2⟩)
      (fun _ => Twins.bind (hF.dealloc _ _ hr.2 p n) fun _ _ h => Twins.pure ⟨hr.1, h⟩)
  owns := owns2_twin hP hF
  maxSize := maxSize2_twin hP hF
  construct := route2_twin hP hP.construct hF.construct _
  destroy := route2_twin hP hP.destroy hF.destroy _
  fini s t hr := Twins.bind (hF.fini _ _ hr.2) fun _ _ _ => hP.fini _ _ hr.1

end Two

section One
variable {A B : Allocator} {R : A.St → B.St → Prop}

theorem threaded_twin (h : Twin τ A B R) : Twin τ (threaded A) (threaded B) R :=
  ⟨by show A.objSize + 48 = B.objSize + 48; rw [h.size], h.init, h.alloc, h.dealloc, h.owns, h.maxSize, h.construct, h.destroy, h.fini⟩

theorem reference_twin (h : Twin τ A B R) : Twin τ (reference A) (reference B) R :=
  ⟨by show A.objSize + 16 = B.objSize + 16; rw [h.size], h.init, h.alloc, h.dealloc, h.owns, h.maxSize, h.construct, h.destroy, h.fini⟩

namespace Cascading

/-- the same node -/
def NodeR (R : A.St → B.St → Prop) (x : Node A.St) (y : Node B.St) : Prop := x.addr = y.addr ∧ R x.st y.st ∧ x.cnt = y.cnt

/-- the same nodes, in the same order -/
def NodesR (R : A.St → B.St → Prop) : List (Node A.St) → List (Node B.St) → Prop
  | [], [] => True
  | x :: xs, y :: ys => NodeR R x y ∧ NodesR R xs ys
  | _, _ => False

variable {sys sys' : Sys} (hs : sys.Alike sys') (hp : sys.plat = .manual → τ)

include hs in
theorem newNode_twins (h : Twin τ A B R) : Twins τ (NodeR R) (newNode sys A) (newNode sys' B) := by
  unfold newNode nodeSize
  rw [h.size]
  exact Twins.bind (alignedNew_twins hs _ h.init) fun r q hr => Twins.pure ⟨hr.1, hr.2, rfl⟩

include hs in
theorem allocFront_twins (h : Twin τ A B R) {x : Node A.St} {y : Node B.St} {xs ys} (hx : NodeR R x y) (hxs : NodesR R xs ys) (n : Nat) :
    Twins τ (fun r q => r.1 = q.1 ∧ NodesR R r.2 q.2) (allocFront sys A x xs n) (allocFront sys' B y ys n) := by
  unfold allocFront
  refine Twins.bind (h.alloc _ _ hx.2.1 n) fun r q ⟨e, h1⟩ => ?_
  rw [e]
  refine Twins.ite (fun _ => ?_) fun _ => Twins.pure ⟨rfl, ⟨hx.1, h1, by simp only [hx.2.2]⟩, hxs⟩
  refine Twins.bind (newNode_twins hs h) fun x2 y2 h2 => Twins.bind (h.alloc _ _ h2.2.1 n) fun r2 q2 ⟨e2, h3⟩ => ?_
  exact Twins.pure ⟨e2, ⟨h2.1, h3, by simp only [h2.2.2, e2]⟩, ⟨hx.1, h1, hx.2.2⟩, hxs⟩

include hs in
theorem alloc_twins (h : Twin τ A B R) {s t} (hr : NodesR R s t) (n : Nat) :
    Twins τ (fun r q => r.1 = q.1 ∧ NodesR R r.2 q.2) (alloc sys A s n) (alloc sys' B t n) := by
  unfold alloc
  refine Twins.bind (R := NodesR R) ?_ fun s' t' hr' => ?_
  · unfold ensure
    cases s <;> cases t <;> first | exact hr.elim | skip
    · exact Twins.bind (newNode_twins hs h) fun x y hx => Twins.pure ⟨hx, trivial⟩
    · exact Twins.pure hr
  · cases s' <;> cases t' <;> first | exact hr'.elim | skip
    · exact Twins.left
    · have hm := h.maxSize
      simp only
      revert hm
      cases A.maxSize <;> cases B.maxSize <;> intro hm <;> first | exact hm.elim | skip
      · exact allocFront_twins hs h hr'.1 hr'.2 n
      · simp only [hm _ _ hr'.1.2.1]
        split
        · exact Twins.left
        · exact Twins.ite (fun _ => Twins.pure ⟨rfl, hr'⟩) fun _ => allocFront_twins hs h hr'.1 hr'.2 n

include hs hp in
theorem dealloc_twins (h : Twin τ A B R) (p n : Nat) (prev : Bool) {s t} (hr : NodesR R s t) :
    Twins τ (NodesR R) (deallocBy (alignedDeleteG sys) A p n prev s) (deallocBy (alignedDeleteG sys') B p n prev t) := by
  induction s generalizing t prev with
  | nil =>
    cases t with
    | nil => exact Twins.pure trivial
    | cons _ _ => exact hr.elim
  | cons x xs ih =>
    cases t with
    | nil => exact hr.elim
    | cons y ys =>
      obtain ⟨hx, hxs⟩ := hr
      simp only [deallocBy, h.ownsD _ _ hx.2.1, hx.2.2, hx.1]
      refine Twins.ite (fun _ => ?_) fun _ => Twins.bind (ih true hxs) fun _ _ h => Twins.pure ⟨hx, h⟩
      refine Twins.bind (h.dealloc _ _ hx.2.1 p n) fun a b hab => ?_
      exact Twins.ite (fun _ => Twins.bind (alignedDeleteG_twins hs hp _ (h.fini _ _ hab)) fun _ _ _ => Twins.pure hxs)
        fun _ => Twins.pure ⟨⟨rfl, hab, rfl⟩, hxs⟩

theorem routeGo_twins (h : Twin τ A B R) {c d} (hc : ∀ s t, R s t → ∀ p, Twins τ R (c s p) (d t p)) (ev : Nat → Ev) (p : Nat) {s t}
    (hr : NodesR R s t) : Twins τ (NodesR R) (routeGo A c ev p s) (routeGo B d ev p t) := by
  induction s generalizing t with
  | nil =>
    cases t with
    | nil => exact Twins.bind (Twins.event _) fun _ _ _ => Twins.pure trivial
    | cons _ _ => exact hr.elim
  | cons x xs ih =>
    cases t with
    | nil => exact hr.elim
    | cons y ys =>
      obtain ⟨hx, hxs⟩ := hr
      simp only [routeGo, h.ownsD _ _ hx.2.1]
      exact Twins.ite (fun _ => Twins.bind (hc _ _ hx.2.1 p) fun _ _ h => Twins.pure ⟨⟨hx.1, h, hx.2.2⟩, hxs⟩)
        fun _ => Twins.bind (ih hxs) fun _ _ h => Twins.pure ⟨hx, h⟩

include hs hp in
theorem release_twins (h : Twin τ A B R) {s t} (hr : NodesR R s t) :
    Twins τ (fun _ _ => True) (releaseBy (alignedDeleteG sys) A s) (releaseBy (alignedDeleteG sys') B t) := by
  induction s generalizing t with
  | nil =>
    cases t with
    | nil => exact Twins.pure trivial
    | cons _ _ => exact hr.elim
  | cons x xs ih =>
    cases t with
    | nil => exact hr.elim
    | cons y ys =>
      obtain ⟨hx, hxs⟩ := hr
      simp only [releaseBy, hx.1]
      exact Twins.bind (alignedDeleteG_twins hs hp _ (h.fini _ _ hx.2.1)) fun _ _ _ => ih hxs

end Cascading

open Cascading in
theorem cascadingG_twin {sys sys' : Sys} (hs : sys.Alike sys') (hp : sys.plat = .manual → τ) (h : Twin τ A B R) :
    Twin τ (cascadingG sys A) (cascadingG sys' B) (NodesR R) where
  size := rfl
  init _ := Twins.pure trivial
  alloc _ _ hr n := alloc_twins hs h hr n
  dealloc _ _ hr p n := dealloc_twins hs hp h p n false hr
  owns := by
    intro s
    induction s with
    | nil =>
      intro t hr
      cases t with
      | nil => rfl
      | cons _ _ => exact hr.elim
    | cons x xs ih =>
      intro t hr
      cases t with
      | nil => exact hr.elim
      | cons y ys =>
        funext p
        have := congrFun (ih ys hr.2) p
        simp only [List.any_cons] at this ⊢
        rw [this, h.ownsD _ _ hr.1.2.1]
  maxSize := by
    have hm := h.maxSize
    simp only [cascadingG, cascading]
    revert hm
    cases A.maxSize <;> cases B.maxSize <;> intro hm <;> first | exact hm.elim | trivial | skip
    intro s t hr
    cases s <;> cases t <;> first | exact hr.elim | rfl | exact hm _ _ hr.1.2.1
  construct := h.construct.map fun _ _ hc _ _ hr p => routeGo_twins h hc _ p hr
  destroy := h.destroy.map fun _ _ hc _ _ hr p => routeGo_twins h hc _ p hr
  fini _ _ hr := release_twins hs hp h hr

theorem sharedG_twin {sys sys' : Sys} (hs : sys.Alike sys') (hp : sys.plat = .manual → τ) (h : Twin τ A B R) :
    Twin τ (sharedG sys A) (sharedG sys' B) (fun s t => s.1 = t.1 ∧ R s.2 t.2) where
  size := rfl
  init b := by
    simp only [sharedG, sharedAlloc, Cascading.nodeSize, h.size]
    exact alignedNew_twins hs _ h.init
  alloc _ _ hr n := Twins.bind (h.alloc _ _ hr.2 n) fun _ _ h => Twins.pure ⟨h.1, hr.1, h.2⟩
  dealloc _ _ hr p n := Twins.bind (h.dealloc _ _ hr.2 p n) fun _ _ h => Twins.pure ⟨hr.1, h⟩
  owns := h.owns.map (k := Prod.snd) (l := Prod.snd) fun _ _ hr => hr.2
  maxSize := h.maxSize.map (k := Prod.snd) (l := Prod.snd) fun _ _ hr => hr.2
  construct := h.construct.map fun _ _ hc _ _ hr p => Twins.bind (hc _ _ hr.2 p) fun _ _ h => Twins.pure ⟨hr.1, h⟩
  destroy := h.destroy.map fun _ _ hc _ _ hr p => Twins.bind (hc _ _ hr.2 p) fun _ _ h => Twins.pure ⟨hr.1, h⟩
  fini s t hr := by
    simp only [sharedG, hr.1]
    exact alignedDeleteG_twins hs hp _ (h.fini _ _ hr.2)

end One

end KTL
