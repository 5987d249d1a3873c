import Verif.Containers.BinaryHeapCalls
import Verif.Base.Post

/- `binary_heap` with and without the calls of `construct` and `destroy` going through the allocator: the two models of it run in step, and
the number of objects the allocator knows of is the number of elements of the heaps. Proof machinery for C83. -/
namespace KTL

/-- `d` ends as `c` does, in the same world, with related results. Proof helper, not code. -/
def InStep {β γ : Type} (c : M β) (d : M γ) (R : β → γ → Prop) : Prop := ∀ w,
  match c w with
  | .ok a w' => ∃ b, d w = .ok b w' ∧ R a b
  | .oom w' => d w = .oom w'
  | .ub => d w = .ub

namespace InStep

variable {β γ β' γ' : Type} {R : β → γ → Prop} {R' : β' → γ' → Prop}

theorem pure {a : β} {b : γ} (h : R a b) : InStep (Pure.pure a) (Pure.pure b) R := fun _ => ⟨b, rfl, h⟩

theorem oom : InStep (M.oom : M β) (M.oom : M γ) R := fun _ => rfl

theorem ub : InStep (M.ub : M β) (M.ub : M γ) R := fun _ => rfl

theorem refl (c : M β) : InStep c c Eq := fun w => by
  cases h : c w with
  | ok a w' => exact ⟨a, rfl, rfl⟩
  | oom w' => exact rfl
  | ub => exact rfl

theorem bind {c : M β} {d : M γ} {f : β → M β'} {g : γ → M γ'} (h : InStep c d R) (hf : ∀ a b, R a b → InStep (f a) (g b) R') :
    InStep (c >>= f) (d >>= g) R' := fun w => by
  have := h w
  rw [M.bind_apply, M.bind_apply]
  cases hc : c w with
  | ok a w' =>
    rw [hc] at this
    obtain ⟨b, e, hr⟩ := this
    rw [e]
    exact hf a b hr w'
  | oom w' =>
    rw [hc] at this
    rw [this]
  | ub =>
    rw [hc] at this
    rw [this]

/-- the same computation on both sides -/
theorem bind' {c : M β} {f : β → M β'} {g : β → M γ'} (hf : ∀ a, InStep (f a) (g a) R') : InStep (c >>= f) (c >>= g) R' :=
  bind (refl c) fun a _ e => e ▸ hf a

/-- a step on one side that changes nothing but what it returns -/
theorem tick {c : M β} {d : M γ'} {g : γ' → M γ} (b : γ') (hd : ∀ w, d w = .ok b w) (h : InStep c (g b) R) : InStep c (d >>= g) R := fun w => by
  have := h w
  rw [M.bind_apply, hd w]
  exact this

theorem ite {p : Prop} [Decidable p] {c c' : M β} {d d' : M γ} (h1 : p → InStep c d R) (h2 : ¬ p → InStep c' d' R) :
    InStep (if p then c else c') (if p then d else d') R := by
  by_cases h : p
  · rw [if_pos h, if_pos h]; exact h1 h
  · rw [if_neg h, if_neg h]; exact h2 h

/-- a conditional in the middle of a sequence -/
theorem iteBind {p : Prop} [Decidable p] {c c' : M β} {d d' : M γ} {f : β → M β'} {g : γ → M γ'} (h1 : p → InStep c d R) (h2 : ¬ p → InStep c' d' R)
    (hf : ∀ a b, R a b → InStep (f a) (g b) R') : InStep (if p then c >>= f else c' >>= f) (if p then d >>= g else d' >>= g) R' :=
  ite (fun h => bind (h1 h) hf) fun h => bind (h2 h) hf

theorem mono {c : M β} {d : M γ} {S : β → γ → Prop} (h : InStep c d R) (hs : ∀ a b, R a b → S a b) : InStep c d S := fun w => by
  have := h w
  cases hc : c w with
  | ok a w' =>
    rw [hc] at this
    obtain ⟨b, e, hr⟩ := this
    exact ⟨b, e, hs a b hr⟩
  | oom w' => rw [hc] at this; exact this
  | ub => rw [hc] at this; exact this

end InStep

/-- The allocator `B` answers as `A`; `R k s t` relates their states when `B` has seen `k` more calls of `construct` than of `destroy`.
Proof helper, not code. -/
structure Counts (A B : Allocator) where
  R : Int → A.St → B.St → Prop
  init : ∀ b, InStep (A.init b) (B.init b) (R 0)
  request : ∀ {k s t}, R k s t → ∀ sz n, InStep (grab sz A s n) (grab sz B t n) (fun r r' => r'.1 = r.1 ∧ R k r.2 r'.2)
  dealloc : ∀ {k s t}, R k s t → ∀ p n, InStep (A.dealloc s p n) (B.dealloc t p n) (R k)
  ctor : ∀ {k s t}, R k s t → ∀ p, ∃ t', (∀ w, B.ctor t p w = .ok t' w) ∧ R (k + 1) s t'
  dtor : ∀ {k s t}, R k s t → ∀ p, ∃ t', (∀ w, B.dtor t p w = .ok t' w) ∧ R (k - 1) s t'

theorem grab_null (sz : Nat) (A : Allocator) (s : A.St) (n : Nat) : Post (grab sz A s n) (fun r => r.1 = 0 → n = 0) := by
  refine Post.bind' fun r => ?_
  split
  · intro w a w' e; cases e
  · rename_i hc
    exact Post.pure fun h0 => Classical.byContradiction fun hn => hc ⟨h0, hn⟩

/-- A heap without a block has neither elements nor capacity. Proof helper, not code. -/
def BHeap.NullOK (h : BHeap) : Prop := h.beg = 0 → h.size = 0 ∧ h.cap = 0

/-- the number of elements of all heaps. Specification, not code. -/
def elements (hs : List BHeap) : Nat := (hs.map BHeap.size).sum

theorem elements_append (hs gs : List BHeap) : elements (hs ++ gs) = elements hs + elements gs := by
  unfold elements; rw [List.map_append, List.sum_append]

theorem elements_one (h : BHeap) : elements [h] = h.size := by simp [elements]

theorem elements_set {hs : List BHeap} {i : Nat} {h : BHeap} (hi : hs[i]? = some h) (g : BHeap) :
    elements (hs.set i g) + h.size = elements hs + g.size := by
  induction hs generalizing i with
  | nil => simp at hi
  | cons x xs ih =>
    cases i with
    | zero =>
      simp only [List.getElem?_cons_zero, Option.some.injEq] at hi
      subst hi
      simp only [elements, List.set_cons_zero, List.map_cons, List.sum_cons]; omega
    | succ i =>
      simp only [List.getElem?_cons_succ] at hi
      have := ih hi
      simp only [elements, List.set_cons_succ, List.map_cons, List.sum_cons] at this ⊢; omega

theorem elements_eraseIdx {hs : List BHeap} {i : Nat} {h : BHeap} (hi : hs[i]? = some h) : elements (hs.eraseIdx i) + h.size = elements hs := by
  induction hs generalizing i with
  | nil => simp at hi
  | cons x xs ih =>
    cases i with
    | zero =>
      simp only [List.getElem?_cons_zero, Option.some.injEq] at hi
      subst hi
      simp only [elements, List.eraseIdx_cons_zero, List.map_cons, List.sum_cons]; omega
    | succ i =>
      simp only [List.getElem?_cons_succ] at hi
      have := ih hi
      simp only [elements, List.eraseIdx_cons_succ, List.map_cons, List.sum_cons] at this ⊢; omega

namespace Counts

variable {α : Type} {A B : Allocator} (C : Counts A B) {E : Elt α} {k : Int} {s : A.St} {t : B.St}

theorem cast {j : Int} (h : C.R k s t) (e : k = j) : C.R j s t := e ▸ h

theorem grab (hR : C.R k s t) (sz n : Nat) :
    InStep (KTL.grab sz A s n) (KTL.grab sz B t n) (fun r r' => r'.1 = r.1 ∧ C.R k r.2 r'.2 ∧ (r.1 = 0 → n = 0)) := by
  intro w
  have := C.request hR sz n w
  cases hg : KTL.grab sz A s n w with
  | oom w' => rw [hg] at this; exact this
  | ub => rw [hg] at this; exact this
  | ok r w' =>
    rw [hg] at this
    obtain ⟨r', e, h1, h2⟩ := this
    exact ⟨r', e, h1, h2, grab_null sz A s n w r w' hg⟩

theorem edealloc (hR : C.R k s t) (o : Objs α) (p n : Nat) :
    InStep (E.dealloc A s o p n) (E.dealloc B t o p n) (fun x y => y.2 = x.2 ∧ C.R k x.1 y.1) :=
  InStep.ite (fun _ => InStep.ub) fun _ => InStep.bind (C.dealloc hR _ _) fun _ _ h => InStep.pure ⟨rfl, h⟩

theorem destroyAll (hR : C.R k s t) (o : Objs α) (beg i n : Nat) :
    InStep (BHeap.destroyAll E beg i n o) (BHeap.destroyAllC E B beg i n t o) (fun x y => y.2 = x ∧ C.R (k - n) s y.1) := by
  induction n generalizing o i k t with
  | zero => exact InStep.pure ⟨rfl, C.cast hR (by simp)⟩
  | succ n ih =>
    obtain ⟨t', e, h'⟩ := C.dtor hR (beg + i * E.size)
    exact InStep.tick t' e (InStep.bind' fun o' => (ih h' o' (i + 1)).mono fun x y ⟨h1, h2⟩ => ⟨h1, C.cast h2 (by push_cast; omega)⟩)

theorem copyAll (hR : C.R k s t) (o : Objs α) (dst src i n : Nat) :
    InStep (BHeap.copyAll E dst src i n o) (BHeap.copyAllC E B dst src i n t o) (fun x y => y.2 = x ∧ C.R (k + n) s y.1) := by
  induction n generalizing o i k t with
  | zero => exact InStep.pure ⟨rfl, C.cast hR (by simp)⟩
  | succ n ih =>
    obtain ⟨t', e, h'⟩ := C.ctor hR (dst + i * E.size)
    exact InStep.bind' fun v => InStep.tick t' e (InStep.bind' fun o' =>
      (ih h' o' (i + 1)).mono fun x y ⟨h1, h2⟩ => ⟨h1, C.cast h2 (by push_cast; omega)⟩)

theorem moveAll (hR : C.R k s t) (o : Objs α) (dst src i n : Nat) :
    InStep (BHeap.moveAll E dst src i n o) (BHeap.moveAllC E B dst src i n t o) (fun x y => y.2 = x ∧ C.R (k + n) s y.1) := by
  induction n generalizing o i k t with
  | zero => exact InStep.pure ⟨rfl, C.cast hR (by simp)⟩
  | succ n ih =>
    obtain ⟨t', e, h'⟩ := C.ctor hR (dst + i * E.size)
    exact InStep.bind' fun v => InStep.tick t' e (InStep.bind' fun o' =>
      (ih h' o' (i + 1)).mono fun x y ⟨h1, h2⟩ => ⟨h1, C.cast h2 (by push_cast; omega)⟩)

theorem destroy (hR : C.R k s t) (o : Objs α) (h : BHeap) (hn : h.NullOK) :
    InStep (h.destroy E A s o) (h.destroyC E B t o) (fun x y => y.2 = x.2 ∧ C.R (k - h.size) x.1 y.1) := by
  refine InStep.ite (fun _ => ?_) fun hb => ?_
  · refine InStep.bind (C.destroyAll hR o h.beg 0 h.size) fun x y ⟨e, h'⟩ => ?_
    subst e
    exact C.edealloc h' _ _ _
  · refine InStep.pure ⟨rfl, C.cast hR ?_⟩
    have := (hn (by omega)).1
    omega

/-- two heaps with the states of their allocators and the objects. Proof helper, not code. -/
def Made (k : Int) (x : A.St × Objs α × BHeap) (y : B.St × Objs α × BHeap) : Prop := y.2 = x.2 ∧ C.R (k + x.2.2.size) x.1 y.1 ∧ x.2.2.NullOK

theorem copy (hR : C.R k s t) (o : Objs α) (h : BHeap) : InStep (h.copy E A s o) (h.copyC E B t o) (C.Made k) := by
  refine InStep.bind (C.grab hR _ _) fun r r' ⟨e, h', h0⟩ => ?_
  rw [e]
  refine InStep.bind (C.copyAll h' o _ _ _ _) fun x y ⟨e, h''⟩ => ?_
  subst e
  exact InStep.pure ⟨rfl, h'', fun hb => ⟨h0 hb, h0 hb⟩⟩

theorem ofCap (hR : C.R k s t) (n : Nat) :
    InStep (BHeap.ofCap E A s n) (BHeap.ofCap E B t n) (fun x y => y.2 = x.2 ∧ C.R k x.1 y.1 ∧ x.2.size = 0 ∧ x.2.NullOK) := by
  refine InStep.bind (C.grab hR _ _) fun r r' ⟨e, h', h0⟩ => ?_
  rw [e]
  exact InStep.pure ⟨rfl, h', rfl, fun hb => ⟨rfl, h0 hb⟩⟩

theorem setSize (hR : C.R k s t) (o : Objs α) (h : BHeap) (hn : h.NullOK) (n : Nat) :
    InStep (h.setSize E A s o n) (h.setSizeC E B t o n)
      (fun x y => C.Made (k - h.size) x y ∧ x.2.2.cap = n) := by
  refine InStep.bind (C.grab hR _ _) fun r r' ⟨e, h', h0⟩ => ?_
  rw [e]
  have hk : ∀ (x : A.St × Objs α) (y : B.St × Objs α), y.2 = x.2 → C.R (k - h.size + (Min.min h.size n : Nat)) x.1 y.1 →
      InStep (Pure.pure (x.1, x.2, (⟨Min.min h.size n, n, r.1⟩ : BHeap))) (Pure.pure (y.1, y.2, (⟨Min.min h.size n, n, r.1⟩ : BHeap)))
        (fun x y => C.Made (k - h.size) x y ∧ x.2.2.cap = n) := fun x y e h2 => by
    rw [e]
    refine InStep.pure ⟨⟨rfl, h2, fun hb => ?_⟩, rfl⟩
    have : n = 0 := h0 hb
    exact ⟨by show Min.min h.size n = 0; omega, this⟩
  refine InStep.ite (fun _ => ?_) fun hb => hk (r.2, o) (r'.2, o) rfl (C.cast h' ?_)
  · refine InStep.bind (C.moveAll h' o _ _ _ _) fun x y ⟨e, h''⟩ => ?_
    subst e
    refine InStep.bind (C.destroyAll h'' _ _ _ _) fun x y ⟨e, h3⟩ => ?_
    subst e
    exact InStep.bind (C.edealloc (C.cast h3 (by omega)) _ _ _) fun x y ⟨e, h4⟩ => hk x y e h4
  · have := (hn (by omega)).1
    omega

theorem reserve (hR : C.R k s t) (o : Objs α) (h : BHeap) (hn : h.NullOK) (n : Nat) :
    InStep (h.reserve E A s o n) (h.reserveC E B t o n) (C.Made (k - h.size)) :=
  InStep.ite (fun _ => (C.setSize hR o h hn n).mono fun _ _ h => h.1) fun _ => InStep.pure ⟨rfl, C.cast hR (by simp), hn⟩

theorem insert (hR : C.R k s t) (comp : α → α → Bool) (o : Objs α) (h : BHeap) (hn : h.NullOK) (x : HArg α) :
    InStep (h.insert E comp A s o x) (h.insertC E comp B t o x) (fun r r' => r'.1 = r.1 ∧ C.Made (k - h.size) r.2 r'.2) := by
  refine InStep.iteBind (R := fun r r' => C.Made (α := α) (k - h.size) r r' ∧ r.2.2.beg ≠ 0) (fun hc => ?_) (fun hc => ?_) fun r r' ⟨⟨e, h', hn'⟩, hb⟩ => ?_
  · refine (C.setSize hR o h hn _).mono fun r r' ⟨h1, h2⟩ => ⟨h1, fun hb => ?_⟩
    have := (h1.2.2 hb).2
    rw [h2] at this
    omega
  · refine InStep.pure ⟨⟨rfl, C.cast hR (by simp), hn⟩, fun hb => ?_⟩
    have := hn hb
    exact hc (by omega)
  · dsimp only
    rw [e]
    refine InStep.bind' fun v => ?_
    obtain ⟨t', et, ht⟩ := C.ctor h' (r.2.2.beg + r.2.2.size * E.size)
    refine InStep.tick t' et (InStep.bind' fun o1 => InStep.bind' fun u => InStep.pure ⟨rfl, rfl, C.cast ht ?_, fun h0 => absurd h0 hb⟩)
    push_cast; omega

theorem insertAll (hR : C.R k s t) (comp : α → α → Bool) (o : Objs α) (h : BHeap) (hn : h.NullOK) (vs : List α) :
    InStep (h.insertAll E comp A s o vs) (h.insertAllC E comp B t o vs) (C.Made (k - h.size)) := by
  induction vs generalizing k s t o h with
  | nil => exact InStep.pure ⟨rfl, C.cast hR (by simp), hn⟩
  | cons v vs ih =>
    refine InStep.bind (C.insert hR comp o h hn (.val v)) fun r r' ⟨_, e, h', hn'⟩ => ?_
    rw [e]
    refine (ih h' _ _ hn').mono fun x y ⟨h1, h2, h3⟩ => ⟨h1, C.cast h2 ?_, h3⟩
    omega

theorem ofList (hR : C.R k s t) (comp : α → α → Bool) (o : Objs α) (vs : List α) :
    InStep (BHeap.ofList E comp A s o vs) (BHeap.ofListC E comp B t o vs) (C.Made k) := by
  refine InStep.bind (C.ofCap hR _) fun r r' ⟨e, h', hz, hn⟩ => ?_
  rw [e]
  refine (C.insertAll h' comp o r.2 hn vs).mono fun x y ⟨h1, h2, h3⟩ => ⟨h1, C.cast h2 ?_, h3⟩
  rw [hz]; simp

theorem pop (hR : C.R k s t) (comp : α → α → Bool) (o : Objs α) (h : BHeap) (hn : h.NullOK) (hs : 0 < h.size) :
    InStep (h.pop E comp o) (h.popC E comp B t o) (fun r r' => r'.1 = r.1 ∧ r'.2.2 = r.2 ∧ C.R (k - h.size + r.2.2.size) s r'.2.1 ∧ r.2.2.NullOK) := by
  refine InStep.bind' fun v => InStep.bind' fun o1 => ?_
  obtain ⟨t', et, ht⟩ := C.dtor hR (h.beg + (h.size - 1) * E.size)
  refine InStep.tick t' et (InStep.bind' fun o2 => InStep.bind' fun o3 => InStep.pure ⟨rfl, rfl, C.cast ht ?_, fun h0 => ?_⟩)
  · show k - 1 = k - h.size + ((h.size - 1 : Nat) : Int)
    omega
  · obtain ⟨h1, h2⟩ := hn h0
    omega

theorem clear (hR : C.R k s t) (o : Objs α) (h : BHeap) (hn : h.NullOK) :
    InStep (h.clear E o) (h.clearC E B t o) (fun r r' => r'.2 = r ∧ C.R (k - h.size) s r'.1 ∧ r.2.size = 0 ∧ r.2.NullOK) := by
  refine InStep.bind (C.destroyAll hR o h.beg 0 h.size) fun x y ⟨e, h'⟩ => ?_
  subst e
  exact InStep.pure ⟨rfl, h', rfl, fun h0 => ⟨rfl, (hn h0).2⟩⟩

/-- Programs in step: the same heaps, objects and observations, and the allocator knows of as many objects as the heaps have elements.
Proof helper, not code. -/
structure Step (c : BHeaps A α) (d : BHeaps B α) : Prop where
  objs : d.objs = c.objs
  hs : d.hs = c.hs
  seen : d.seen = c.seen
  count : C.R (elements c.hs) c.st d.st
  null : ∀ h ∈ c.hs, h.NullOK

theorem null_ok : BHeap.null.NullOK := fun _ => ⟨rfl, rfl⟩

theorem null_set {hs : List BHeap} (hn : ∀ h ∈ hs, h.NullOK) (i : Nat) {g : BHeap} (hg : g.NullOK) : ∀ h ∈ hs.set i g, h.NullOK := fun h hh => by
  rcases List.mem_or_eq_of_mem_set hh with h' | rfl
  · exact hn h h'
  · exact hg

theorem null_append {hs : List BHeap} (hn : ∀ h ∈ hs, h.NullOK) {g : BHeap} (hg : g.NullOK) : ∀ h ∈ hs ++ [g], h.NullOK := fun h hh => by
  rcases List.mem_append.1 hh with h' | h'
  · exact hn h h'
  · rw [List.mem_singleton] at h'; exact h' ▸ hg

theorem step {c : BHeaps A α} {d : BHeaps B α} (h : C.Step c d) (comp eq : α → α → Bool) (op : BOp α) :
    InStep (c.step E comp eq op) (d.stepC E comp eq op) C.Step := by
  obtain ⟨st, objs, hs, seen⟩ := c
  obtain ⟨st', objs', hs', seen'⟩ := d
  obtain ⟨rfl, rfl, rfl, hR, hN⟩ := h
  have hnull : ∀ {i : Nat} {h : BHeap}, hs'[i]? = some h → h.NullOK := fun hi => hN _ (List.mem_of_getElem? hi)
  have same : C.Step (α := α) ⟨st, objs', hs', seen'⟩ ⟨st', objs', hs', seen'⟩ := ⟨rfl, rfl, rfl, hR, hN⟩
  cases op with
  | new =>
    refine InStep.pure ⟨rfl, rfl, rfl, C.cast hR ?_, null_append hN null_ok⟩
    rw [elements_append, elements_one]; rfl
  | newCap n =>
    refine InStep.bind (C.ofCap hR n) fun r r' ⟨e, h', hz, hn⟩ => ?_
    refine InStep.pure ⟨rfl, by rw [e], rfl, C.cast h' ?_, null_append hN hn⟩
    rw [elements_append, elements_one, hz]; rfl
  | newList vs =>
    refine InStep.bind (C.ofList hR comp objs' vs) fun r r' ⟨e, h', hn⟩ => ?_
    refine InStep.pure ⟨by simp only [e], by simp only [e], rfl, C.cast h' ?_, null_append hN hn⟩
    rw [elements_append, elements_one]; push_cast; rfl
  | copy j =>
    simp only [BHeaps.step, BHeaps.stepC]
    cases hj : hs'[j]? with
    | none => exact InStep.pure same
    | some g =>
      refine InStep.bind (C.copy hR objs' g) fun r r' ⟨e, h', hn⟩ => ?_
      refine InStep.pure ⟨by simp only [e], by simp only [e], rfl, C.cast h' ?_, null_append hN hn⟩
      rw [elements_append, elements_one]; push_cast; rfl
  | move j =>
    simp only [BHeaps.step, BHeaps.stepC]
    cases hj : hs'[j]? with
    | none => exact InStep.pure same
    | some g =>
      refine InStep.pure ⟨rfl, rfl, rfl, C.cast hR ?_, null_append (null_set hN j null_ok) (hnull hj)⟩
      have := elements_set hj BHeap.null
      rw [elements_append, elements_one]
      simp only [BHeap.null] at this ⊢
      omega
  | copyAssign i j =>
    simp only [BHeaps.step, BHeaps.stepC]
    refine InStep.ite (fun _ => InStep.pure same) fun _ => ?_
    simp only [BHeaps.copyAssign, BHeaps.copyAssignC]
    cases hi : hs'[i]? with
    | none => exact InStep.pure same
    | some h =>
      cases hj : hs'[j]? with
      | none => exact InStep.pure same
      | some g =>
        refine InStep.bind (C.destroy hR objs' h (hnull hi)) fun x y ⟨e, h1⟩ => ?_
        rw [e]
        refine InStep.bind (C.grab h1 _ _) fun r r' ⟨e', h2, h0⟩ => ?_
        rw [e']
        refine InStep.bind (C.copyAll h2 _ _ _ _ _) fun u v ⟨e'', h3⟩ => ?_
        refine InStep.pure ⟨e'', rfl, rfl, C.cast h3 ?_, null_set hN i fun hb => ⟨h0 hb, h0 hb⟩⟩
        have := elements_set hi (⟨g.size, g.size, r.1⟩ : BHeap)
        simp only at this ⊢
        omega
  | moveAssign i j =>
    simp only [BHeaps.step, BHeaps.stepC, BHeaps.moveAssign, BHeaps.moveAssignC]
    cases hi : hs'[i]? with
    | none => exact InStep.pure same
    | some h =>
      cases hj : hs'[j]? with
      | none => exact InStep.pure same
      | some g =>
        refine InStep.bind (C.destroy hR objs' h (hnull hi)) fun x y ⟨e, h1⟩ => ?_
        refine InStep.pure ⟨e, rfl, rfl, C.cast h1 ?_, null_set (null_set hN i (hnull hj)) j null_ok⟩
        have e1 := elements_set hi g
        have hj' : (hs'.set i g)[j]? = some g := by
          by_cases hij : i = j
          · subst hij; exact List.getElem?_set_self (List.getElem?_eq_some_iff.1 hi).1
          · rw [List.getElem?_set_ne hij]; exact hj
        have e2 := elements_set hj' BHeap.null
        simp only [BHeap.null] at e2 ⊢
        omega
  | destroy i =>
    simp only [BHeaps.step, BHeaps.stepC]
    cases hi : hs'[i]? with
    | none => exact InStep.pure same
    | some h =>
      refine InStep.bind (C.destroy hR objs' h (hnull hi)) fun x y ⟨e, h1⟩ => ?_
      refine InStep.pure ⟨e, rfl, rfl, C.cast h1 ?_, fun g hg => hN g (List.mem_of_mem_eraseIdx hg)⟩
      have := elements_eraseIdx hi
      simp only
      omega
  | reserve i n =>
    simp only [BHeaps.step, BHeaps.stepC]
    cases hi : hs'[i]? with
    | none => exact InStep.pure same
    | some h =>
      refine InStep.bind (C.reserve hR objs' h (hnull hi) n) fun r r' ⟨e, h', hn⟩ => ?_
      refine InStep.pure ⟨by simp only [e], by simp only [e], rfl, C.cast h' ?_, null_set hN i hn⟩
      have := elements_set hi r.2.2
      simp only
      omega
  | insert i v =>
    simp only [BHeaps.step, BHeaps.stepC]
    cases hi : hs'[i]? with
    | none => exact InStep.pure same
    | some h =>
      refine InStep.bind (C.insert hR comp objs' h (hnull hi) (.val v)) fun r r' ⟨e0, e, h', hn⟩ => ?_
      rw [e0, e]
      refine InStep.bind' fun x => InStep.pure ⟨rfl, rfl, rfl, C.cast h' ?_, null_set hN i hn⟩
      have := elements_set hi r.2.2.2
      simp only
      omega
  | insertFrom i j k =>
    simp only [BHeaps.step, BHeaps.stepC]
    cases hi : hs'[i]? with
    | none => exact InStep.pure same
    | some h =>
      cases hj : hs'[j]? with
      | none => exact InStep.pure same
      | some g =>
        refine InStep.ite (fun _ => ?_) fun _ => InStep.pure same
        refine InStep.bind (C.insert hR comp objs' h (hnull hi) _) fun r r' ⟨e0, e, h', hn⟩ => ?_
        refine InStep.pure ⟨by simp only [e], by simp only [e], rfl, C.cast h' ?_, null_set hN i hn⟩
        have := elements_set hi r.2.2.2
        simp only
        omega
  | pop i =>
    simp only [BHeaps.step, BHeaps.stepC]
    cases hi : hs'[i]? with
    | none => exact InStep.pure same
    | some h =>
      refine InStep.ite (fun hp => ?_) fun _ => InStep.pure same
      refine InStep.bind (C.pop hR comp objs' h (hnull hi) hp) fun r r' ⟨e0, e, h', hn⟩ => ?_
      refine InStep.pure ⟨by simp only [e], by simp only [e], by simp only [e0], C.cast h' ?_, null_set hN i hn⟩
      have := elements_set hi r.2.2
      simp only
      omega
  | peek i =>
    simp only [BHeaps.step, BHeaps.stepC]
    cases hi : hs'[i]? with
    | none => exact InStep.pure same
    | some h =>
      refine InStep.ite (fun hp => ?_) fun _ => InStep.pure same
      exact InStep.bind' fun x => InStep.pure ⟨rfl, rfl, rfl, hR, hN⟩
  | find i v =>
    simp only [BHeaps.step, BHeaps.stepC]
    cases hi : hs'[i]? with
    | none => exact InStep.pure same
    | some h => exact InStep.bind' fun x => InStep.pure ⟨rfl, rfl, rfl, hR, hN⟩
  | clear i =>
    simp only [BHeaps.step, BHeaps.stepC]
    cases hi : hs'[i]? with
    | none => exact InStep.pure same
    | some h =>
      refine InStep.bind (C.clear hR objs' h (hnull hi)) fun r r' ⟨e, h', hz, hn⟩ => ?_
      refine InStep.pure ⟨by simp only [e], by simp only [e], rfl, C.cast h' ?_, null_set hN i hn⟩
      have := elements_set hi r.2
      simp only
      omega

theorem run {c : BHeaps A α} {d : BHeaps B α} (h : C.Step c d) (comp eq : α → α → Bool) (ops : List (BOp α)) :
    InStep (c.run E comp eq ops) (d.runC E comp eq ops) C.Step := by
  induction ops generalizing c d with
  | nil => exact InStep.pure h
  | cons o os ih => exact InStep.bind (C.step h comp eq o) fun _ _ h' => ih h'

/-- Programs with heaps run in step. -/
theorem play (E : Elt α) (comp eq : α → α → Bool) (b : Nat) (ops : List (BOp α)) : InStep (hplay E comp eq A b ops) (hplayC E comp eq B b ops) C.Step :=
  InStep.bind (C.init b) fun s t h =>
    C.run (c := ⟨s, fun _ => none, [], []⟩) (d := ⟨t, fun _ => none, [], []⟩) ⟨rfl, rfl, rfl, h, fun _ h => by cases h⟩ comp eq ops

theorem destroyHeaps (hR : C.R k s t) (o : Objs α) (hs : List BHeap) (hn : ∀ h ∈ hs, h.NullOK) :
    InStep (BHeaps.destroyAll E s o hs) (BHeaps.destroyAllC E t o hs) (fun x y => y.2 = x.2 ∧ C.R (k - elements hs) x.1 y.1) := by
  induction hs generalizing k s t o with
  | nil => exact InStep.pure ⟨rfl, C.cast hR (by simp [elements])⟩
  | cons h hs ih =>
    refine InStep.bind (C.destroy hR o h (hn h (by simp))) fun x y ⟨e, h'⟩ => ?_
    rw [e]
    refine (ih h' _ fun g hg => hn g (by simp [hg])).mono fun u v ⟨e, h2⟩ => ⟨e, C.cast h2 ?_⟩
    simp only [elements, List.map_cons, List.sum_cons]
    push_cast; omega

end Counts

end KTL
