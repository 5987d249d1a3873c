import Verif.Base.Heap

/-
The abstract machine: worlds, outcomes, the program monad, malloc/free, byte loads and stores,
and Hoare triples with the frame property built in.
-/
namespace KTL

/-- Lines printed by `ktl::overflow` on its stream (`allocators/overflow.h:59-78, 126-167`). -/
inductive Msg where
  /-- "Buffer overflow"-style report: block address and size, farthest corrupted byte before and
  after the block (0 = that side is intact). -/
  | corruption (p n before after : Nat)
  /-- "memory leak" report with the value of `m_Allocs`. -/
  | leak (bytes : Int)
  /-- "constructor/destructor mismatch" report with the value of `m_Constructs`. -/
  | logic (count : Int)
  deriving DecidableEq, Repr

/-- Object life-time events: placement-new at `p` / destructor call at `p`. C++ machine, not library code. -/
inductive Ev where
  | ctor (p : Nat)
  | dtor (p : Nat)
  deriving DecidableEq, Repr

/-- Everything the program can observe or change outside its own variables. C++ machine, not library code. -/
structure World where
  heap : Heap
  /-- number of malloc calls so far; only used as an argument of the malloc oracle -/
  tick : Nat := 0
  /-- sticky: some allocation request has been answered with null -/
  failed : Bool := false
  out : List Msg := []
  log : List Ev := []

/-- Outcome of a program. `ub`: undefined behaviour (or divergence). `oom`: undefined behaviour that
is only reached because the null result of a failed allocation was used without a check.
C++ machine, not library code. -/
inductive Res (α : Type) where
  | ok (a : α) (w : World)
  | oom (w : World)
  | ub

/-- Programs. C++ machine, not library code. -/
def M (α : Type) : Type := World → Res α

namespace M
variable {α β : Type}

/-- C++ machine, not library code. -/
def pure' (a : α) : M α := fun w => .ok a w
/-- C++ machine, not library code. -/
def bind' (c : M α) (f : α → M β) : M β := fun w =>
  match c w with
  | .ok a w' => f a w'
  | .oom w' => .oom w'
  | .ub => .ub

instance : Monad M where
  pure := pure'
  bind := bind'

theorem pure_apply (a : α) (w : World) : (pure a : M α) w = .ok a w := rfl
theorem bind_apply (c : M α) (f : α → M β) (w : World) :
    (c >>= f) w = match c w with
      | .ok a w' => f a w'
      | .oom w' => .oom w'
      | .ub => .ub := rfl

/-- undefined behaviour. C++ machine, not library code. -/
def ub : M α := fun _ => .ub
/-- a container uses the null result of its allocator without a check. C++ machine, not library code. -/
def oom : M α := fun w => .oom { w with failed := true }
/-- use of the unchecked null result of `malloc`: undefined behaviour, reported as `oom` if (and only
if) some allocation really has failed before. C++ machine, not library code. -/
def nullDeref : M α := fun w => if w.failed then .oom w else .ub

instance : LawfulMonad M := LawfulMonad.mk'
  (id_map := by
    intro α x; funext w; show bind' x _ w = _; unfold bind'; cases h : x w <;> rfl)
  (pure_bind := by intros; rfl)
  (bind_assoc := by
    intro α β γ x f g; funext w
    simp only [bind_apply]; cases x w <;> rfl)

open Lean.Order in
instance {α} : PartialOrder (Res α) := inferInstanceAs (PartialOrder (FlatOrder Res.ub))
open Lean.Order in
noncomputable instance {α} : CCPO (Res α) := inferInstanceAs (CCPO (FlatOrder Res.ub))
open Lean.Order in
instance {α} : PartialOrder (M α) := inferInstanceAs (PartialOrder (World → Res α))
open Lean.Order in
noncomputable instance {α} : CCPO (M α) := inferInstanceAs (CCPO (World → Res α))
open Lean.Order in
instance : MonoBind M where
  bind_mono_left {α β a₁ a₂ f} h := by
    intro w
    have h' := h w
    simp only [bind_apply]
    revert h'
    generalize a₁ w = x; generalize a₂ w = y
    intro h'
    cases h'
    · exact FlatOrder.rel.bot
    · exact FlatOrder.rel.refl
  bind_mono_right {α β a f₁ f₂} h := by
    intro w
    simp only [bind_apply]
    cases a w with
    | ok a w' => exact h a w'
    | oom => exact FlatOrder.rel.refl
    | ub => exact FlatOrder.rel.refl

instance : Inhabited (M α) := ⟨ub⟩

/-! ### Primitive operations -/

/-- read one byte. C++ machine, not library code. -/
def load (a : Nat) : M UInt8 := fun w =>
  match w.heap.b a with
  | some v => .ok v w
  | none => .ub

/-- write one byte. C++ machine, not library code. -/
def store (a : Nat) (v : UInt8) : M Unit := fun w =>
  match w.heap.b a with
  | some _ => .ok () { w with heap := { w.heap with b := fun x => if x = a then some v else w.heap.b x } }
  | none => .ub

/-- print a message. C++ machine, not library code. -/
def print (m : Msg) : M Unit := fun w => .ok () { w with out := w.out ++ [m] }

/-- `if (c) x;`. C++ machine, not library code. -/
def ifThen (c : Prop) [Decidable c] (x : M Unit) : M Unit := if c then x else pure ()

/-- record an object life-time event. C++ machine, not library code. -/
def event (e : Ev) : M Unit := fun w => .ok () { w with log := w.log ++ [e] }

/-- read `n` consecutive bytes (memcpy source side). C++ machine, not library code. -/
def readBytes (p : Nat) : Nat → M (List UInt8)
  | 0 => pure []
  | n + 1 => do
    let x ← load p
    let xs ← readBytes (p + 1) n
    pure (x :: xs)

/-- write consecutive bytes (memcpy destination side, memset). C++ machine, not library code. -/
def writeBytes (p : Nat) : List UInt8 → M Unit
  | [] => pure ()
  | x :: xs => do
    store p x
    writeBytes (p + 1) xs

/-- little-endian representation of a pointer. C++ machine, not library code. -/
def encPtr (v : Nat) : List UInt8 :=
  [UInt8.ofNat v, UInt8.ofNat (v / 256), UInt8.ofNat (v / 65536), UInt8.ofNat (v / 16777216),
   UInt8.ofNat (v / 4294967296), UInt8.ofNat (v / 1099511627776),
   UInt8.ofNat (v / 281474976710656), UInt8.ofNat (v / 72057594037927936)]

/-- value of a list of little-endian bytes. C++ machine, not library code. -/
def decPtr : List UInt8 → Nat
  | [] => 0
  | x :: xs => x.toNat + 256 * decPtr xs

/-- read a pointer-sized object. C++ machine, not library code. -/
def readPtr (p : Nat) : M Nat := do
  let bs ← readBytes p 8
  pure (decPtr bs)

/-- write a pointer-sized object. C++ machine, not library code. -/
def writePtr (p v : Nat) : M Unit := writeBytes p (encPtr v)

end M

/-- Which branch of `utility/aligned_malloc.h:48-87` is compiled. -/
inductive Plat where
  /-- `malloc` already aligned to 16 (glibc LP64, Win64, Apple, FreeBSD) -/
  | direct
  /-- generic branch: over-allocate and store the original pointer in front of the result -/
  | manual
  deriving DecidableEq, Repr

/-- alignment guaranteed by the platform's `malloc`. `utility/aligned_malloc.h:6-27`. -/
def Plat.mallocAlign : Plat → Nat
  | .direct => 16
  | .manual => 8

/-- The platform and an arbitrary behaviour of the C library's `malloc`. It sees how often it was
called and the whole memory, may fail, and may choose any fresh address and contents. C++ machine, not library code. -/
structure Sys where
  plat : Plat
  malloc : Nat → Heap → Nat → Option (Nat × (Nat → UInt8))
  valid : ∀ k h n a c, malloc k h n = some (a, c) →
    0 < a ∧ a % plat.mallocAlign = 0 ∧ a + n < W64 ∧ h.t a = none ∧
    ∀ x, a ≤ x → x < a + n → h.b x = none

/-- C `malloc`. C++ machine, not library code. -/
def cMalloc (sys : Sys) (n : Nat) : M Nat := fun w =>
  match sys.malloc w.tick w.heap n with
  | none => .ok 0 { w with tick := w.tick + 1, failed := true }
  | some (a, c) => .ok a { w with
      tick := w.tick + 1
      heap := ⟨fun x => if a ≤ x ∧ x < a + n then some (c (x - a)) else w.heap.b x,
               fun x => if x = a then some n else w.heap.t x⟩ }

/-- the `n` bytes from `a` on are all there. C++ machine, not library code. -/
def Heap.hasBytes (h : Heap) (a n : Nat) : Bool := (List.range n).all fun i => (h.b (a + i)).isSome

theorem Heap.hasBytes_iff {h : Heap} {a n : Nat} : h.hasBytes a n = true ↔ ∀ x, a ≤ x → x < a + n → (h.b x).isSome = true := by
  unfold Heap.hasBytes
  rw [List.all_eq_true]
  constructor
  · intro hh x h1 h2
    have := hh (x - a) (List.mem_range.2 (by omega))
    rwa [Nat.add_sub_cancel' h1] at this
  · intro hh i hi
    exact hh _ (by omega) (by have := List.mem_range.1 hi; omega)

/-- C `free`: undefined unless the argument is null or the start of a live malloc block, all of which is there.
C++ machine, not library code. -/
def cFree (a : Nat) : M Unit := fun w =>
  if a = 0 then .ok () w else
  match w.heap.t a with
  | none => .ub
  | some n => if w.heap.hasBytes a n then .ok () { w with
      heap := ⟨fun x => if a ≤ x ∧ x < a + n then none else w.heap.b x,
               fun x => if x = a then none else w.heap.t x⟩ } else .ub

/-! ### Hoare triples -/

/-- No corruption report was printed between `w` and `w'`. Specification, not code. -/
def NoAlarm (w w' : World) : Prop :=
  ∀ p n x y, Msg.corruption p n x y ∈ w'.out → Msg.corruption p n x y ∈ w.out

theorem NoAlarm.rfl' {w : World} : NoAlarm w w := fun _ _ _ _ h => h
theorem NoAlarm.trans {w1 w2 w3 : World} (h1 : NoAlarm w1 w2) (h2 : NoAlarm w2 w3) : NoAlarm w1 w3 :=
  fun p n x y h => h1 p n x y (h2 p n x y h)

/-- `c`, started in a memory whose part `h` satisfies `P`, never has undefined behaviour; it either
ends with that part satisfying `Q`, the rest of memory untouched and no corruption report printed, or
fails for lack of memory. Specification, not code. -/
def Triple {α} (P : HProp) (c : M α) (Q : α → HProp) : Prop :=
  ∀ (w : World) (h hf : Heap), Heap.disj h hf → w.heap = h.add hf → P h →
    match c w with
    | .ok a w' => (∃ h', Heap.disj h' hf ∧ w'.heap = h'.add hf ∧ Q a h') ∧ NoAlarm w w'
    | .oom w' => w'.failed = true
    | .ub => False

variable {α β : Type}

theorem Triple.pure {P : HProp} {Q : α → HProp} (a : α) (h : ∀ s, P s → Q a s) :
    Triple P (Pure.pure a : M α) Q := by
  intro w s hf hd he hp
  exact ⟨⟨s, hd, he, h s hp⟩, .rfl'⟩

theorem Triple.bind {P : HProp} {R : α → HProp} {Q : β → HProp} {c : M α} {f : α → M β}
    (hc : Triple P c R) (hf : ∀ a, Triple (R a) (f a) Q) : Triple P (c >>= f) Q := by
  intro w h hf' hd he hp
  have := hc w h hf' hd he hp
  rw [M.bind_apply]
  cases hcw : c w with
  | ok a w' =>
    rw [hcw] at this
    obtain ⟨⟨h', hd', he', hq⟩, hn⟩ := this
    have h2 := hf a w' h' hf' hd' he' hq
    revert h2
    show (match f a w' with | .ok a w' => _ | .oom w' => _ | .ub => _) → (match f a w' with | .ok a w' => _ | .oom w' => _ | .ub => _)
    cases f a w' with
    | ok b w2 => exact fun h2 => ⟨h2.1, hn.trans h2.2⟩
    | oom w2 => exact id
    | ub => exact id
  | oom w' => rw [hcw] at this; exact this
  | ub => rw [hcw] at this; exact this

theorem Triple.conseq {P P' : HProp} {Q Q' : α → HProp} {c : M α}
    (hc : Triple P c Q) (hp : ∀ s, P' s → P s) (hq : ∀ a s, Q a s → Q' a s) : Triple P' c Q' := by
  intro w h hf hd he hp'
  have := hc w h hf hd he (hp _ hp')
  cases hcw : c w with
  | ok a w' =>
    rw [hcw] at this
    obtain ⟨⟨h', hd', he', hq'⟩, hn⟩ := this
    exact ⟨⟨h', hd', he', hq _ _ hq'⟩, hn⟩
  | oom w' => rw [hcw] at this; exact this
  | ub => rw [hcw] at this; exact this

theorem Triple.pre {P P' : HProp} {Q : α → HProp} {c : M α}
    (hc : Triple P c Q) (hp : ∀ s, P' s → P s) : Triple P' c Q := hc.conseq hp (fun _ _ => id)

theorem Triple.post {P : HProp} {Q Q' : α → HProp} {c : M α}
    (hc : Triple P c Q) (hq : ∀ a s, Q a s → Q' a s) : Triple P c Q' := hc.conseq (fun _ => id) hq

theorem Triple.frame {P : HProp} {Q : α → HProp} {c : M α} (F : HProp)
    (hc : Triple P c Q) : Triple (P ∗ F) c (fun a => Q a ∗ F) := by
  intro w h hf hd he hp
  obtain ⟨h1, h2, hd12, rfl, hp1, hF⟩ := hp
  have hd' := Heap.disj_add_left.1 hd
  have := hc w h1 (h2.add hf) (Heap.disj_add_right.2 ⟨hd12, hd'.1⟩)
    (by rw [he, Heap.add_assoc]) hp1
  cases hcw : c w with
  | ok a w' =>
    rw [hcw] at this
    obtain ⟨⟨h', hd1, he', hq⟩, hn⟩ := this
    have hd2 := Heap.disj_add_right.1 hd1
    refine ⟨⟨h'.add h2, Heap.disj_add_left.2 ⟨hd2.2, hd'.2⟩, by rw [he', Heap.add_assoc], ?_⟩, hn⟩
    exact ⟨h', h2, hd2.1, rfl, hq, hF⟩
  | oom w' => rw [hcw] at this; exact this
  | ub => rw [hcw] at this; exact this

theorem Triple.exists {ι} {P : ι → HProp} {Q : α → HProp} {c : M α}
    (h : ∀ i, Triple (P i) c Q) : Triple (fun s => ∃ i, P i s) c Q := by
  intro w s hf hd he ⟨i, hp⟩
  exact h i w s hf hd he hp

theorem Triple.and {p : Prop} {P : HProp} {Q : α → HProp} {c : M α}
    (h : p → Triple P c Q) : Triple (fun s => p ∧ P s) c Q := by
  intro w s hf hd he ⟨hp, hP⟩
  exact h hp w s hf hd he hP

theorem Triple.or {P P' : HProp} {Q : α → HProp} {c : M α}
    (h : Triple P c Q) (h' : Triple P' c Q) : Triple (fun s => P s ∨ P' s) c Q := by
  intro w s hf hd he hp
  rcases hp with hp | hp
  · exact h w s hf hd he hp
  · exact h' w s hf hd he hp

theorem Triple.false {Q : α → HProp} {c : M α} {P : HProp} (h : ∀ s, P s → False) :
    Triple P c Q := by
  intro w s hf hd he hp; exact (h _ hp).elim

/-- May use a pure consequence of the precondition. -/
theorem Triple.have {p : Prop} {P : HProp} {Q : α → HProp} {c : M α}
    (hp : ∀ s, P s → p) (h : p → Triple P c Q) : Triple P c Q := by
  intro w s hf hd he hs
  exact h (hp s hs) w s hf hd he hs

theorem Triple.oom {P : HProp} {Q : α → HProp} : Triple P (M.oom : M α) Q := by
  intro w s hf hd he hp; rfl

/-- Rule for "use the result of an allocation without checking it": only the non-null case remains to
be verified, provided that a null result really means a failed allocation. -/
theorem Triple.bindNull {P : HProp} {R : Nat → HProp} {Q : α → HProp} {c : M Nat} {f : Nat → M α}
    (hc : Triple P c R) (hz : ∀ w w', c w = .ok 0 w' → w'.failed = true)
    (hf : ∀ p, p ≠ 0 → Triple (R p) (f p) Q) :
    Triple P (c >>= fun p => if p = 0 then M.nullDeref else f p) Q := by
  intro w h hf' hd he hp
  have := hc w h hf' hd he hp
  rw [M.bind_apply]
  cases hcw : c w with
  | ok a w' =>
    rw [hcw] at this
    obtain ⟨⟨h', hd', he', hq⟩, hn⟩ := this
    by_cases ha : a = 0
    · subst ha
      have := hz w w' hcw
      simp [M.nullDeref, this]
    · have h2 := hf a ha w' h' hf' hd' he' hq
      simp only [ha, if_false]
      revert h2
      cases f a w' with
      | ok b w2 => exact fun h2 => ⟨h2.1, hn.trans h2.2⟩
      | oom w2 => exact id
      | ub => exact id
  | oom w' => rw [hcw] at this; exact this
  | ub => rw [hcw] at this; exact this

theorem Triple.print {P : HProp} (m : Msg) (hm : ∀ p n x y, m ≠ .corruption p n x y) :
    Triple P (M.print m) (fun _ => P) := by
  intro w s hf hd he hp
  refine ⟨⟨s, hd, he, hp⟩, fun p n x y h => ?_⟩
  rcases List.mem_append.1 h with h | h
  · exact h
  · exact absurd (List.mem_singleton.1 h).symm (hm p n x y)

theorem Triple.ifThen {c : Prop} [Decidable c] {x : M Unit} {P : HProp}
    (h : Triple P x (fun _ => P)) : Triple P (M.ifThen c x) (fun _ => P) := by
  unfold M.ifThen; split
  · exact h
  · exact Triple.pure _ (fun _ h => h)

theorem Triple.event {P : HProp} (m : Ev) : Triple P (M.event m) (fun _ => P) := by
  intro w s hf hd he hp; exact ⟨⟨s, hd, he, hp⟩, .rfl'⟩

/-! ### Specifications of the primitives -/

theorem triple_load (a : Nat) (v : UInt8) :
    Triple (bytesV a [v]) (M.load a) (fun r s => r = v ∧ bytesV a [v] s) := by
  intro w s hf hd he hp
  have hv : s.b a = some v := by rw [hp.2 a]; simp
  have : w.heap.b a = some v := by rw [he]; simp [hv]
  simp only [M.load, this]
  exact ⟨⟨s, hd, he, trivial, hp⟩, .rfl'⟩

theorem triple_store (a : Nat) (v v' : UInt8) :
    Triple (bytesV a [v]) (M.store a v') (fun _ => bytesV a [v']) := by
  intro w s hf hd he hp
  have hv : s.b a = some v := by rw [hp.2 a]; simp
  have : w.heap.b a = some v := by rw [he]; simp [hv]
  simp only [M.store, this]
  have hfa : hf.b a = none := by
    rcases hd.1 a with e | e
    · simp [hv] at e
    · exact e
  refine ⟨⟨⟨fun x => if x = a then some v' else none, fun _ => none⟩, ⟨fun x => ?_, fun x => Or.inl rfl⟩,
    ?_, fun _ => rfl, fun x => ?_⟩, .rfl'⟩
  · by_cases hx : x = a
    · subst hx; right; exact hfa
    · left; simp [hx]
  · apply Heap.ext'
    · intro x
      by_cases hx : x = a
      · simp [hx]
      · have hs : s.b x = none := by
          rw [hp.2 x]; split
          · have : x - a ≠ 0 := by omega
            rw [List.getElem?_eq_none_iff]; simp; omega
          · rfl
        simp [hx, he, hs]
    · intro x; simp [he, hp.1 x]
  · by_cases hx : x = a
    · simp [hx]
    · simp only [hx, if_false]
      split
      · symm; rw [List.getElem?_eq_none_iff]; simp; omega
      · rfl

theorem bytesV_cons (p : Nat) (x : UInt8) (xs : List UInt8) :
    bytesV p (x :: xs) = (bytesV p [x] ∗ bytesV (p + 1) xs) := by
  have := bytesV_append p [x] xs
  simpa using this

theorem triple_readBytes (p : Nat) (bs : List UInt8) :
    Triple (bytesV p bs) (M.readBytes p bs.length) (fun r s => r = bs ∧ bytesV p bs s) := by
  induction bs generalizing p with
  | nil => exact Triple.pure _ (fun s h => ⟨rfl, h⟩)
  | cons x xs ih =>
    rw [bytesV_cons]
    refine Triple.bind ((triple_load p x).frame _) (fun r => ?_)
    simp only [star_and]
    refine Triple.and (fun hr => ?_)
    subst hr
    refine Triple.bind (R := fun r' s => r' = xs ∧ (bytesV p [r] ∗ bytesV (p+1) xs) s) ?_ ?_
    · rw [star_comm]
      refine ((ih (p+1)).frame _).post ?_
      intro a s h
      rw [star_and] at h
      exact h
    · intro r'
      refine Triple.and (fun hr => ?_)
      subst hr
      exact Triple.pure _ (fun s h => ⟨rfl, h⟩)

theorem bytes_one (p : Nat) : bytes p 1 = fun s => ∃ v, bytesV p [v] s := by
  rw [bytes_eq_exists]
  funext s; apply propext; constructor
  · rintro ⟨bs, hl, hb⟩
    match bs, hl with
    | [v], _ => exact ⟨v, hb⟩
  · rintro ⟨v, hb⟩; exact ⟨[v], rfl, hb⟩

theorem triple_writeBytes (p : Nat) (bs : List UInt8) :
    Triple (bytes p bs.length) (M.writeBytes p bs) (fun _ => bytesV p bs) := by
  induction bs generalizing p with
  | nil => exact Triple.pure _ (fun s h => by rw [List.length_nil, bytes_zero] at h; rwa [bytesV_nil])
  | cons x xs ih =>
    rw [bytesV_cons, List.length_cons, Nat.add_comm, bytes_split, bytes_one, star_exists]
    refine Triple.exists (fun v => ?_)
    refine Triple.bind ((triple_store p v x).frame _) (fun _ => ?_)
    rw [star_comm, star_comm (bytesV p [x])]
    exact (ih (p+1)).frame _

theorem encPtr_length (v : Nat) : (M.encPtr v).length = 8 := rfl

theorem decPtr_encPtr (v : Nat) (hv : v < W64) : M.decPtr (M.encPtr v) = v := by
  simp only [M.encPtr, M.decPtr, UInt8.toNat_ofNat']
  omega

/-- a stored pointer. Proof helper, not code. -/
def ptrV (p v : Nat) : HProp := bytesV p (M.encPtr v)

theorem ptrV_bytes {p v s} (h : ptrV p v s) : bytes p 8 s := bytesV_length h

theorem triple_readPtr (p v : Nat) (hv : v < W64) :
    Triple (ptrV p v) (M.readPtr p) (fun r s => r = v ∧ ptrV p v s) := by
  refine Triple.bind (triple_readBytes p (M.encPtr v)) (fun r => ?_)
  refine Triple.and (fun hr => ?_)
  subst hr
  exact Triple.pure _ (fun s h => ⟨decPtr_encPtr v hv, h⟩)

theorem triple_writePtr (p v : Nat) :
    Triple (bytes p 8) (M.writePtr p v) (fun _ => ptrV p v) :=
  triple_writeBytes p (M.encPtr v)

theorem triple_cMalloc (sys : Sys) (n : Nat) :
    Triple emp (cMalloc sys n) (fun r s => (r = 0 ∧ emp s) ∨
      (0 < r ∧ r % sys.plat.mallocAlign = 0 ∧ r + n < W64 ∧ (tok r n ∗ bytes r n) s)) := by
  intro w s hf hd he hp
  have hs : s = Heap.empty := hp
  subst hs
  simp only [Heap.empty_add] at he
  unfold cMalloc
  cases hm : sys.malloc w.tick w.heap n with
  | none => exact ⟨⟨Heap.empty, hd, by simpa using he, Or.inl ⟨rfl, rfl⟩⟩, .rfl'⟩
  | some ac =>
    obtain ⟨a, c⟩ := ac
    obtain ⟨h1, h2, h3, h4, h5⟩ := sys.valid _ _ _ _ _ hm
    rw [he] at h4 h5
    refine ⟨⟨⟨fun x => if a ≤ x ∧ x < a + n then some (c (x - a)) else none,
             fun x => if x = a then some n else none⟩, ⟨fun x => ?_, fun x => ?_⟩, ?_, Or.inr ⟨h1, h2, h3, ?_⟩⟩, .rfl'⟩
    · by_cases hx : a ≤ x ∧ x < a + n
      · right; exact h5 x hx.1 hx.2
      · left; simp only [hx, if_false]
    · by_cases hx : x = a
      · right; rw [hx]; exact h4
      · left; simp only [hx, if_false]
    · apply Heap.ext'
      · intro x
        by_cases hx : a ≤ x ∧ x < a + n <;> simp [hx, he]
      · intro x
        by_cases hx : x = a <;> simp [hx, he]
    · refine ⟨⟨fun _ => none, fun x => if x = a then some n else none⟩,
        ⟨fun x => if a ≤ x ∧ x < a + n then some (c (x - a)) else none, fun _ => none⟩,
        ⟨fun x => Or.inl rfl, fun x => Or.inr rfl⟩, ?_, ⟨fun _ => rfl, fun x => rfl⟩, fun _ => rfl, fun x => ?_⟩
      · apply Heap.ext' <;> intro x <;> simp
      · by_cases hx : a ≤ x ∧ x < a + n <;> simp [hx]

theorem triple_cFree (a n : Nat) (ha : 0 < a) :
    Triple (tok a n ∗ bytes a n) (cFree a) (fun _ => emp) := by
  intro w s hf hd he hp
  obtain ⟨h1, h2, hd12, rfl, ⟨tb, tt⟩, bt, bb⟩ := hp
  replace bb : ∀ x, (h2.b x).isSome = true ↔ (a ≤ x ∧ x < a + n) := bb
  have hta : w.heap.t a = some n := by rw [he]; simp [tt]
  have : a ≠ 0 := by omega
  have hby : w.heap.hasBytes a n = true := Heap.hasBytes_iff.2 fun x h1 h2 => by
    rw [he]
    have := (bb x).2 ⟨h1, h2⟩
    simp [this]
  simp only [cFree, this, if_false, hta, hby, if_true]
  have hd' := Heap.disj_add_left.1 hd
  refine ⟨⟨Heap.empty, Heap.empty_disj _, ?_, rfl⟩, .rfl'⟩
  apply Heap.ext'
  · intro x
    by_cases hx : a ≤ x ∧ x < a + n
    · have h := (bb x).2 hx
      rcases hd'.2.1 x with e | e
      · simp [e] at h
      · simp [hx, e]
    · have h : h2.b x = none := isSome_eq_none.1 (mt (bb x).1 hx)
      simp [hx, he, tb, h]
  · intro x
    by_cases hx : x = a
    · subst hx
      rcases hd'.1.2 x with e | e
      · simp [tt] at e
      · simp [e]
    · simp [hx, he, tt, bt]

theorem triple_cFree_null : Triple emp (cFree 0) (fun _ => emp) := by
  intro w s hf hd he hp
  exact ⟨⟨s, hd, he, hp⟩, .rfl'⟩

end KTL
