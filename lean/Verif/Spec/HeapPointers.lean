import Verif.Containers.HeapPointers
import Verif.Spec.ContainerPointers
import Verif.Props.BinaryHeap

/- Programs with heaps do the same with the rules for pointers checked (proof machinery for C91). -/
namespace KTL

/-- Both do the same; the results are related by `f`. Proof helper, not code. -/
def Alike {α β : Type} (f : α → β → Prop) (c : M α) (d : M β) : Prop :=
  ∀ w, match d w with
    | .ok b w' => ∃ a, c w = .ok a w' ∧ f a b
    | .oom w' => c w = .oom w'
    | .ub => c w = .ub

namespace Alike
variable {α β γ δ : Type} {f : α → β → Prop} {g : γ → δ → Prop}

theorem pure {a : α} {b : β} (h : f a b) : Alike f (Pure.pure a : M α) (Pure.pure b : M β) := fun w => ⟨a, rfl, h⟩

theorem ub : Alike f (M.ub : M α) (M.ub : M β) := fun _ => rfl

theorem bind {c : M α} {d : M β} {k : α → M γ} {l : β → M δ} (h : Alike f c d) (h' : ∀ a b, f a b → Alike g (k a) (l b)) :
    Alike g (c >>= k) (d >>= l) := fun w => by
  have h1 := h w
  rw [M.bind_apply, M.bind_apply]
  cases hd : d w with
  | ub => rw [hd] at h1; simp only [h1]
  | oom w' => rw [hd] at h1; simp only [h1]
  | ok b w' =>
    rw [hd] at h1
    obtain ⟨a, hc, hf⟩ := h1
    rw [hc]
    exact h' a b hf w'

/-- the same, with a fact about the result -/
theorem refl' (c : M α) (P : α → Prop) (hP : ∀ w a w', c w = .ok a w' → P a) : Alike (fun a b => a = b ∧ P a) c c := fun w => by
  cases hc : c w with
  | ok a w' => exact ⟨a, rfl, rfl, hP w a w' hc⟩
  | oom => rfl
  | ub => rfl

theorem same' (c : M α) (P : α → Prop) (hP : ∀ w a w', c w = .ok a w' → P a) {k : α → M γ} {l : α → M δ} (h : ∀ a, P a → Alike g (k a) (l a)) :
    Alike g (c >>= k) (c >>= l) :=
  bind (refl' c P hP) fun a b e => by obtain ⟨rfl, e⟩ := e; exact h a e

/-- both do the same first -/
theorem same (c : M α) {k : α → M γ} {l : α → M δ} (h : ∀ a, Alike g (k a) (l a)) : Alike g (c >>= k) (c >>= l) :=
  same' c (fun _ => True) (fun _ _ _ _ => trivial) fun a _ => h a

theorem mono {c : M α} {d : M β} {f' : α → β → Prop} (h : Alike f c d) (hf : ∀ a b, f a b → f' a b) : Alike f' c d := fun w => by
  have := h w
  cases hd : d w with
  | ok b w' => rw [hd] at this; obtain ⟨a, h1, h2⟩ := this; exact ⟨a, h1, hf a b h2⟩
  | oom => rw [hd] at this; exact this
  | ub => rw [hd] at this; exact this

theorem eq {c d : M α} {P : α → α → Prop} (h : Alike (fun a b => a = b ∧ P a b) c d) : c = d := funext fun w => by
  have := h w
  cases hd : d w with
  | ok b w' => rw [hd] at this; obtain ⟨a, h1, rfl, _⟩ := this; exact h1
  | oom => rw [hd] at this; exact this
  | ub => rw [hd] at this; exact this

theorem of_eq {c d : M α} (h : c = d) : Alike (fun a b => a = b) c d := fun w => by
  rw [h]
  cases d w <;> simp
end Alike

variable {α : Type}

theorem ptrAt_eq {lo sz i n : Nat} (h : i ≤ n) : M.ptrAt lo (lo + n * sz) sz i = pure (lo + i * sz) := by
  unfold M.ptrAt; rw [elem_at h]; rfl

theorem itemAt_eq {lo sz i n : Nat} (h0 : lo = 0 → n = 0) (h : i < n) : M.itemAt lo (lo + n * sz) sz i = pure (lo + i * sz) := by
  have : (i + 1) * sz ≤ n * sz := Nat.mul_le_mul_right _ h
  rw [Nat.succ_mul] at this
  unfold M.itemAt
  rw [elem_at (Nat.le_of_lt h), pure_bind_unit]
  exact if_pos ⟨fun e => by have := h0 e; omega, by omega⟩

section
variable {E : Elt α} {comp : α → α → Bool} {beg cap : Nat} (h0 : beg = 0 → cap = 0)
include h0

theorem PHeap.destroyAll_eq : ∀ (n i : Nat) (o : Objs α), i + n ≤ cap →
    PHeap.destroyAll E beg (beg + cap * E.size) i n o = BHeap.destroyAll E beg i n o
  | 0, _, _, _ => rfl
  | n + 1, i, o, h => by
    unfold PHeap.destroyAll BHeap.destroyAll
    rw [itemAt_eq h0 (by omega), pure_bind]
    exact bind_congr fun o' => PHeap.destroyAll_eq n (i + 1) o' (by omega)

theorem PHeap.copyAll_eq {src m : Nat} (h1 : src = 0 → m = 0) : ∀ (n i : Nat) (o : Objs α), i + n ≤ cap → i + n ≤ m →
    PHeap.copyAll E beg (beg + cap * E.size) src (src + m * E.size) i n o = BHeap.copyAll E beg src i n o
  | 0, _, _, _, _ => rfl
  | n + 1, i, o, h, h' => by
    unfold PHeap.copyAll BHeap.copyAll
    rw [itemAt_eq h1 (by omega), pure_bind, itemAt_eq h0 (by omega)]
    exact bind_congr fun v => bind_congr fun o' => PHeap.copyAll_eq h1 n (i + 1) o' (by omega) (by omega)

theorem PHeap.moveAll_eq {src m : Nat} (h1 : src = 0 → m = 0) : ∀ (n i : Nat) (o : Objs α), i + n ≤ cap → i + n ≤ m →
    PHeap.moveAll E beg (beg + cap * E.size) src (src + m * E.size) i n o = BHeap.moveAll E beg src i n o
  | 0, _, _, _, _ => rfl
  | n + 1, i, o, h, h' => by
    unfold PHeap.moveAll BHeap.moveAll
    rw [itemAt_eq h1 (by omega), pure_bind, itemAt_eq h0 (by omega)]
    exact bind_congr fun v => bind_congr fun o' => PHeap.moveAll_eq h1 n (i + 1) o' (by omega) (by omega)

theorem PHeap.upLoop_eq (value : α) : ∀ (index : Nat) (o : Objs α), index < cap →
    Alike (fun a b => a = b ∧ a.1 < cap) (PHeap.upLoop E comp beg (beg + cap * E.size) value index o) (BHeap.upLoop E comp beg value index o) := by
  intro index
  induction index using Nat.strongRecOn with
  | ind index ih =>
    intro o h
    unfold PHeap.upLoop BHeap.upLoop
    by_cases hi : index ≠ 0
    · rw [dif_pos hi, dif_pos hi, itemAt_eq h0 (by omega), itemAt_eq h0 h, pure_bind]
      refine Alike.same _ fun pv => ?_
      split
      · exact Alike.same _ fun r => Alike.same _ fun o' => ih _ (by omega) o' (by omega)
      · exact Alike.pure ⟨rfl, h⟩
    · rw [dif_neg hi, dif_neg hi]
      exact Alike.pure ⟨rfl, h⟩

theorem PHeap.percolateUp_eq (index : Nat) (o : Objs α) (h : index < cap) :
    Alike (fun a b => a = b ∧ a.1 < cap) (PHeap.percolateUp E comp beg (beg + cap * E.size) index o) (BHeap.percolateUp E comp beg index o) := by
  unfold PHeap.percolateUp BHeap.percolateUp
  rw [itemAt_eq h0 h, pure_bind]
  refine Alike.same _ fun v => Alike.bind (PHeap.upLoop_eq h0 v index o h) fun a b e => ?_
  obtain ⟨rfl, e⟩ := e
  rw [itemAt_eq h0 e, pure_bind]
  exact Alike.same _ fun _ => Alike.pure ⟨rfl, e⟩

theorem PHeap.better_eq {size : Nat} (o : Objs α) {c child : Nat} (hs : size ≤ cap) (hc : child < cap) :
    Alike (fun a b => a = b ∧ a < cap) (PHeap.better E comp beg (beg + cap * E.size) size o c child) (BHeap.better E comp beg size o c child) := by
  unfold PHeap.better BHeap.better
  split
  · rw [itemAt_eq h0 (by omega), itemAt_eq h0 hc, pure_bind]
    refine Alike.same _ fun x => Alike.same _ fun y => Alike.pure ⟨rfl, ?_⟩
    split <;> omega
  · exact Alike.pure ⟨rfl, hc⟩

theorem PHeap.downLoop_eq {size : Nat} (hs : size ≤ cap) : ∀ (fuel parent : Nat) (o : Objs α), parent < cap →
    Alike (fun a b => a = b ∧ a.1 < cap) (PHeap.downLoop E comp beg (beg + cap * E.size) size fuel parent o) (BHeap.downLoop E comp beg size fuel parent o)
  | 0, _, _, _ => Alike.ub
  | fuel + 1, parent, o, h => by
    unfold PHeap.downLoop BHeap.downLoop
    split
    · refine Alike.bind (PHeap.better_eq h0 o hs h) fun a b e => ?_
      obtain ⟨rfl, e⟩ := e
      refine Alike.bind (PHeap.better_eq h0 o hs e) fun a b e => ?_
      obtain ⟨rfl, e⟩ := e
      split
      · exact Alike.pure ⟨rfl, h⟩
      · rw [itemAt_eq h0 e, itemAt_eq h0 h, pure_bind]
        exact Alike.same _ fun _ => Alike.same _ fun _ => Alike.same _ fun _ => Alike.same _ fun o' => PHeap.downLoop_eq hs fuel _ o' e
    · exact Alike.pure ⟨rfl, h⟩

theorem PHeap.percolateDown_eq {size : Nat} (hs : size ≤ cap) (index : Nat) (o : Objs α) (h : index < cap) :
    PHeap.percolateDown E comp beg (beg + cap * E.size) size index o = BHeap.percolateDown E comp beg size index o := by
  unfold PHeap.percolateDown BHeap.percolateDown
  rw [itemAt_eq h0 h, pure_bind]
  refine Alike.eq (P := fun _ _ => True) (Alike.same _ fun v => Alike.bind (PHeap.downLoop_eq h0 hs _ index o h) fun a b e => ?_)
  obtain ⟨rfl, e⟩ := e
  rw [itemAt_eq h0 e, pure_bind]
  exact Alike.refl' _ (fun _ => True) fun _ _ _ _ => trivial

theorem PHeap.find_eq (eq : α → Bool) (o : Objs α) : ∀ (n i : Nat), i + n ≤ cap →
    PHeap.find E eq o beg (beg + cap * E.size) i n = BHeap.find E eq o beg i n
  | 0, i, h => by
    unfold PHeap.find BHeap.find
    rw [ptrAt_eq (by omega)]; rfl
  | n + 1, i, h => by
    unfold PHeap.find BHeap.find
    rw [itemAt_eq h0 (by omega), ptrAt_eq (by omega), PHeap.find_eq eq o n (i + 1) (by omega)]
    rfl
end

/-- the array of the heap is the block, its elements lie in it; size and capacity are bounded. Proof helper, not code. -/
structure PHeap.Ok (sz T : Nat) (p : PHeap) : Prop where
  top : p.top = p.h.beg + p.h.cap * sz
  le : p.h.size ≤ p.h.cap
  null : p.h.beg = 0 → p.h.cap = 0
  size : p.h.size ≤ T
  cap : p.h.cap ≤ 2 * T

theorem PHeap.Ok.mono {sz T T' : Nat} {p : PHeap} (h : p.Ok sz T) (hT : T ≤ T') : p.Ok sz T' :=
  ⟨h.top, h.le, h.null, by have := h.size; omega, by have := h.cap; omega⟩

theorem PHeap.null_ok {sz T : Nat} : PHeap.null.Ok sz T :=
  ⟨by simp [PHeap.null, BHeap.null], Nat.le_refl _, fun _ => rfl, Nat.zero_le _, Nat.zero_le _⟩

/-- the results of two functions that return the allocator, the objects and the heap. Proof helper, not code. -/
def HRel (sz T : Nat) {S : Type} (a : S × Objs α × PHeap) (b : S × Objs α × BHeap) : Prop := a.1 = b.1 ∧ a.2.1 = b.2.1 ∧ a.2.2.h = b.2.2 ∧ a.2.2.Ok sz T

section
variable {E : Elt α} {comp : α → α → Bool} {A : Allocator} {s : A.St} {o : Objs α} {T : Nat}

theorem PHeap.ofCap_alike (n : Nat) (hn : E.size * n < W64) :
    Alike (fun (a : A.St × PHeap) (b : A.St × BHeap) => a.1 = b.1 ∧ a.2.h = b.2 ∧ a.2.Ok E.size n ∧ a.2.h.size = 0) (PHeap.ofCap E A s n) (BHeap.ofCap E A s n) := by
  refine Alike.same' _ _ (fun w r w' => grab_null_zero w r w') (fun r hr => ?_)
  rw [mulW_eq hn]
  exact Alike.pure ⟨rfl, rfl, ⟨rfl, Nat.zero_le _, hr, Nat.zero_le _, by show n ≤ 2 * n; omega⟩, rfl⟩

theorem PHeap.destroy_eq {p : PHeap} (hp : p.Ok E.size T) (s : A.St) (o : Objs α) : p.destroy E A s o = p.h.destroy E A s o := by
  unfold PHeap.destroy BHeap.destroy
  rw [hp.top, PHeap.destroyAll_eq hp.null _ _ _ (by have := hp.le; omega)]

theorem PHeap.copy_alike {p : PHeap} (hp : p.Ok E.size T) (hn : E.size * p.h.size < W64) :
    Alike (HRel E.size T) (p.copy E A s o) (p.h.copy E A s o) := by
  refine Alike.same' _ _ (fun w r w' => grab_null_zero w r w') (fun r hr => ?_)
  rw [mulW_eq hn, hp.top, PHeap.copyAll_eq hr hp.null _ _ _ (by omega) (by have := hp.le; omega)]
  have := hp.size
  exact Alike.same _ fun o' => Alike.pure ⟨rfl, rfl, rfl, rfl, Nat.le_refl _, hr, this, by show p.h.size ≤ 2 * T; omega⟩

theorem PHeap.setSize_alike {p : PHeap} (hp : p.Ok E.size T) (n : Nat) (hn : E.size * n < W64) {T' : Nat} (hT : T ≤ T') (hT' : n ≤ 2 * T') :
    Alike (fun a b => HRel E.size T' a b ∧ a.2.2.h.size = Min.min p.h.size n ∧ a.2.2.h.cap = n) (p.setSize E A s o n) (p.h.setSize E A s o n) := by
  have h1 := hp.le
  have h2 := hp.size
  refine Alike.same' _ _ (fun w r w' => grab_null_zero w r w') (fun r hr => ?_)
  rw [mulW_eq hn, hp.top]
  have fin : ∀ x : A.St × Objs α, Alike (fun a b => HRel E.size T' a b ∧ a.2.2.h.size = Min.min p.h.size n ∧ a.2.2.h.cap = n)
      (pure (x.1, x.2, ⟨⟨Min.min p.h.size n, n, r.1⟩, r.1 + n * E.size⟩) : M (A.St × Objs α × PHeap))
      (pure (x.1, x.2, ⟨Min.min p.h.size n, n, r.1⟩)) :=
    fun x => Alike.pure ⟨⟨rfl, rfl, rfl, rfl, Nat.min_le_right .., hr, by show Min.min p.h.size n ≤ T'; omega, hT'⟩, rfl, rfl⟩
  dsimp only
  split
  · rw [PHeap.moveAll_eq hr hp.null _ _ _ (by omega) (by omega)]
    refine Alike.same _ fun o1 => ?_
    rw [PHeap.destroyAll_eq hp.null _ _ _ (by omega)]
    exact Alike.same _ fun o2 => Alike.same _ fun x => fin x
  · exact fin _

theorem PHeap.reserve_alike {p : PHeap} (hp : p.Ok E.size T) (n : Nat) (hn : E.size * n < W64) :
    Alike (HRel E.size (T + n)) (p.reserve E A s o n) (p.h.reserve E A s o n) := by
  unfold PHeap.reserve BHeap.reserve
  split
  · exact (PHeap.setSize_alike hp n hn (T' := T + n) (by omega) (by omega)).mono fun _ _ h => h.1
  · exact Alike.pure ⟨rfl, rfl, rfl, hp.mono (by omega)⟩

theorem PHeap.insert_alike {p : PHeap} (hp : p.Ok E.size T) (hlt : p.h.size + 1 ≤ T) (x : HArg α) (hW : ∀ m, m ≤ 2 * T → E.size * m < W64) :
    Alike (fun a b => a.1 = b.1 ∧ HRel E.size T a.2 b.2 ∧ a.2.2.2.h.size = p.h.size + 1) (p.insert E comp A s o x) (p.h.insert E comp A s o x) := by
  have h1 := hp.le
  have h2 := hp.size
  have tail : ∀ (a : A.St × Objs α × PHeap) (b : A.St × Objs α × BHeap), HRel E.size T a b → a.2.2.h.size = p.h.size → p.h.size < a.2.2.h.cap →
      Alike (fun (a : Nat × A.St × Objs α × PHeap) (b : Nat × A.St × Objs α × BHeap) => a.1 = b.1 ∧ HRel E.size T a.2 b.2 ∧ a.2.2.2.h.size = p.h.size + 1)
        (do
          let q ← M.itemAt a.2.2.h.beg a.2.2.top E.size a.2.2.h.size
          let v ← x.fetch E a.2.1
          let o1 ← E.construct a.2.1 q v
          let u ← PHeap.percolateUp E comp a.2.2.h.beg a.2.2.top a.2.2.h.size o1
          let it ← M.ptrAt a.2.2.h.beg a.2.2.top E.size u.1
          pure (it, a.1, u.2, (⟨⟨a.2.2.h.size + 1, a.2.2.h.cap, a.2.2.h.beg⟩, a.2.2.top⟩ : PHeap)))
        (do
          let v ← x.fetch E b.2.1
          let o1 ← E.construct b.2.1 (b.2.2.beg + b.2.2.size * E.size) v
          let u ← BHeap.percolateUp E comp b.2.2.beg b.2.2.size o1
          pure (b.2.2.beg + u.1 * E.size, b.1, u.2, { b.2.2 with size := b.2.2.size + 1 })) := by
    intro a b h hs hc
    obtain ⟨sa, oa, ha⟩ := a
    obtain ⟨sb, ob, hb⟩ := b
    obtain ⟨rfl, rfl, rfl, hok⟩ := h
    dsimp only at hs hc hok ⊢
    rw [hok.top, itemAt_eq hok.null (by omega), pure_bind]
    refine Alike.same _ fun v => Alike.same _ fun o1 => Alike.bind (PHeap.percolateUp_eq hok.null _ _ (by omega)) fun a b e => ?_
    obtain ⟨rfl, e⟩ := e
    rw [ptrAt_eq (Nat.le_of_lt e), pure_bind]
    refine Alike.pure ⟨rfl, ⟨rfl, rfl, by rw [← hok.top], ?_⟩, by rw [← hs]⟩
    exact ⟨rfl, by show ha.h.size + 1 ≤ ha.h.cap; omega, hok.null, by show ha.h.size + 1 ≤ T; omega, hok.cap⟩
  unfold PHeap.insert BHeap.insert
  by_cases h : p.h.size = p.h.cap
  · rw [if_pos h, if_pos h]
    refine Alike.bind (PHeap.setSize_alike hp (p.h.cap + Max.max p.h.cap 1) (hW _ (by omega)) (T' := T) (by omega) (by omega)) fun a b e => ?_
    exact tail a b e.1 (by rw [e.2.1]; omega) (by rw [e.2.2]; omega)
  · rw [if_neg h, if_neg h]
    exact tail (s, o, p) (s, o, p.h) ⟨rfl, rfl, rfl, hp⟩ rfl (by show p.h.size < p.h.cap; omega)

theorem PHeap.insertAll_alike (vs : List α) (hW : ∀ m, m ≤ 2 * T → E.size * m < W64) : ∀ (s : A.St) (o : Objs α) (p : PHeap), p.Ok E.size T →
    p.h.size + vs.length ≤ T → Alike (HRel E.size T) (PHeap.insertAll E comp A s o p vs) (BHeap.insertAll E comp A s o p.h vs) := by
  induction vs with
  | nil => exact fun s o p hp _ => Alike.pure ⟨rfl, rfl, rfl, hp⟩
  | cons v vs ih =>
    intro s o p hp hlt
    rw [List.length_cons] at hlt
    unfold PHeap.insertAll BHeap.insertAll
    refine Alike.bind (PHeap.insert_alike hp (by omega) (.val v) hW) fun a b e => ?_
    obtain ⟨ia, sa, oa, ha⟩ := a
    obtain ⟨ib, sb, ob, hb⟩ := b
    obtain ⟨_, ⟨h1, h2, h3, h4⟩, h5⟩ := e
    dsimp only at h1 h2 h3 h4 h5 ⊢
    subst h1; subst h2; subst h3
    exact ih sa oa ha h4 (by omega)
end

/-- the relation kept by programs. Proof helper, not code. -/
def PHeaps.Rel (sz T : Nat) {A : Allocator} (c : PHeaps A α) (d : BHeaps A α) : Prop := c.base = d ∧ ∀ p ∈ c.hs, p.Ok sz T

section
variable {E : Elt α} {comp eq : α → α → Bool} {A : Allocator} {T T' : Nat}

theorem PHeaps.get (c : PHeaps A α) (i : Nat) : c.base.hs[i]? = (c.hs[i]?).map PHeap.h := List.getElem?_map

theorem PHeaps.Rel.add {c : PHeaps A α} (h : ∀ p ∈ c.hs, p.Ok E.size T) (hT : T ≤ T') {a : A.St × Objs α × PHeap} {b : A.St × Objs α × BHeap} (hr : HRel E.size T' a b) :
    PHeaps.Rel E.size T' { c with st := a.1, objs := a.2.1, hs := c.hs ++ [a.2.2] } { c.base with st := b.1, objs := b.2.1, hs := c.base.hs ++ [b.2.2] } := by
  refine ⟨?_, fun p hp => ?_⟩
  · simp [PHeaps.base, hr.1, hr.2.1, hr.2.2.1]
  · rcases List.mem_append.1 hp with hp | hp
    · exact (h p hp).mono hT
    · rw [List.mem_singleton.1 hp]; exact hr.2.2.2

theorem PHeaps.Rel.set {c : PHeaps A α} (h : ∀ p ∈ c.hs, p.Ok E.size T) (hT : T ≤ T') (i : Nat) {a : A.St × Objs α × PHeap} {b : A.St × Objs α × BHeap} (hr : HRel E.size T' a b)
    (seen : List (HObs α)) :
    PHeaps.Rel E.size T' ⟨a.1, a.2.1, c.hs.set i a.2.2, seen⟩ ⟨b.1, b.2.1, c.base.hs.set i b.2.2, seen⟩ := by
  refine ⟨?_, fun p hp => ?_⟩
  · simp [PHeaps.base, List.map_set, hr.1, hr.2.1, hr.2.2.1]
  · rcases List.mem_or_eq_of_mem_set hp with hp | rfl
    · exact (h p hp).mono hT
    · exact hr.2.2.2

theorem phstep (c : PHeaps A α) (o : BOp α) (hc : ∀ p ∈ c.hs, p.Ok E.size T) (hW : ∀ m, m ≤ 2 * (T + o.weight) → E.size * m < W64) :
    Alike (PHeaps.Rel E.size (T + o.weight)) (c.step E comp eq o) (c.base.step E comp eq o) := by
  have hT : T ≤ T + o.weight := Nat.le_add_right ..
  have hself : Alike (PHeaps.Rel E.size (T + o.weight)) (pure c) (pure c.base) := Alike.pure ⟨rfl, fun p hp => (hc p hp).mono hT⟩
  have hget := c.get
  have hmem : ∀ {i : Nat} {p : PHeap}, c.hs[i]? = some p → p.Ok E.size T := fun h => hc _ (List.mem_of_getElem? h)
  cases o with
  | new => exact Alike.pure (PHeaps.Rel.add hc hT (a := (c.st, c.objs, PHeap.null)) (b := (c.st, c.objs, BHeap.null)) ⟨rfl, rfl, rfl, PHeap.null_ok⟩)
  | newCap n =>
    simp only [BOp.weight] at hW hT ⊢
    exact Alike.bind (PHeap.ofCap_alike n (hW _ (by omega))) fun a b h =>
      Alike.pure (PHeaps.Rel.add hc hT (a := (a.1, c.objs, a.2)) (b := (b.1, c.objs, b.2)) ⟨h.1, rfl, h.2.1, h.2.2.1.mono (by omega)⟩)
  | newList vs =>
    simp only [BOp.weight] at hW hT ⊢
    refine Alike.bind (f := HRel E.size (T + vs.length)) ?_ fun a b h => Alike.pure (PHeaps.Rel.add hc hT h)
    refine Alike.bind (PHeap.ofCap_alike vs.length (hW _ (by omega))) fun a b h => ?_
    obtain ⟨h1, h2, h3, h4⟩ := h
    rw [← h1, ← h2]
    exact PHeap.insertAll_alike vs hW _ _ _ (h3.mono (by omega)) (by omega)
  | copy j =>
    simp only [PHeaps.step, BHeaps.step, hget]
    cases hj : c.hs[j]? with
    | none => exact hself
    | some p =>
      have hp := hmem hj
      exact Alike.bind (PHeap.copy_alike hp (hW _ (by have := hp.size; omega))) fun a b h => Alike.pure (PHeaps.Rel.add hc hT ⟨h.1, h.2.1, h.2.2.1, h.2.2.2.mono hT⟩)
  | move j =>
    simp only [PHeaps.step, BHeaps.step, hget]
    cases hj : c.hs[j]? with
    | none => exact hself
    | some p =>
      refine Alike.pure ⟨by simp [PHeaps.base, List.map_set, PHeap.null], fun q hq => ?_⟩
      rcases List.mem_append.1 hq with hq | hq
      · rcases List.mem_or_eq_of_mem_set hq with hq | rfl
        · exact (hc q hq).mono hT
        · exact PHeap.null_ok
      · rw [List.mem_singleton.1 hq]; exact (hmem hj).mono hT
  | copyAssign i j =>
    simp only [PHeaps.step, BHeaps.step]
    split
    · exact hself
    · rename_i hij
      unfold PHeaps.copyAssign BHeaps.copyAssign
      simp only [hget]
      cases hi : c.hs[i]? with
      | none => exact hself
      | some p =>
        cases hj : c.hs[j]? with
        | none => exact hself
        | some g =>
          have hg := hmem hj
          simp only [Option.map_some]
          rw [PHeap.destroy_eq (hmem hi)]
          refine Alike.same _ fun x => Alike.same' _ _ (fun w r w' => grab_null_zero w r w') fun r hr => ?_
          rw [mulW_eq (hW _ (by have := hg.size; omega)), List.getElem?_set_ne hij, List.getElem?_set_ne hij, hget, hj]
          simp only [Option.map_some]
          rw [hg.top, PHeap.copyAll_eq hr hg.null _ _ _ (by omega) (by have := hg.le; omega)]
          refine Alike.same _ fun o' => Alike.pure ?_
          have := hg.size
          exact PHeaps.Rel.set hc hT i (a := (r.2, o', ⟨⟨g.h.size, g.h.size, r.1⟩, _⟩)) (b := (r.2, o', ⟨g.h.size, g.h.size, r.1⟩))
            ⟨rfl, rfl, rfl, rfl, Nat.le_refl _, hr, by show g.h.size ≤ T + _; omega, by show g.h.size ≤ 2 * (T + _); omega⟩ c.seen
  | moveAssign i j =>
    simp only [PHeaps.step, BHeaps.step]
    unfold PHeaps.moveAssign BHeaps.moveAssign
    simp only [hget]
    cases hi : c.hs[i]? with
    | none => exact hself
    | some p =>
      cases hj : c.hs[j]? with
      | none => exact hself
      | some g =>
        simp only [Option.map_some]
        rw [PHeap.destroy_eq (hmem hi)]
        refine Alike.same _ fun x => Alike.pure ⟨by simp [PHeaps.base, List.map_set, PHeap.null], fun q hq => ?_⟩
        rcases List.mem_or_eq_of_mem_set hq with hq | rfl
        · rcases List.mem_or_eq_of_mem_set hq with hq | rfl
          · exact (hc q hq).mono hT
          · exact (hmem hj).mono hT
        · exact PHeap.null_ok
  | destroy i =>
    simp only [PHeaps.step, BHeaps.step, hget]
    cases hi : c.hs[i]? with
    | none => exact hself
    | some p =>
      simp only [Option.map_some]
      rw [PHeap.destroy_eq (hmem hi)]
      exact Alike.same _ fun x => Alike.pure ⟨by simp [PHeaps.base, map_eraseIdx], fun q hq => (hc q (List.mem_of_mem_eraseIdx hq)).mono hT⟩
  | reserve i n =>
    simp only [BOp.weight] at hW hT hself ⊢
    simp only [PHeaps.step, BHeaps.step, hget]
    cases hi : c.hs[i]? with
    | none => exact hself
    | some p => exact Alike.bind (PHeap.reserve_alike (hmem hi) n (hW _ (by omega))) fun a b h => Alike.pure (PHeaps.Rel.set hc hT i h c.seen)
  | insert i v =>
    simp only [BOp.weight] at hW hT hself ⊢
    simp only [PHeaps.step, BHeaps.step, hget]
    cases hi : c.hs[i]? with
    | none => exact hself
    | some p =>
      refine Alike.bind (PHeap.insert_alike ((hmem hi).mono hT) (by have := (hmem hi).size; omega) (.val v) hW) fun a b h => ?_
      obtain ⟨h1, h2, _⟩ := h
      rw [h1, h2.2.1]
      refine Alike.same _ fun x => Alike.pure ?_
      have := PHeaps.Rel.set hc hT i h2 (c.seen ++ [.elem x])
      rw [h2.2.1] at this
      exact this
  | insertFrom i j k =>
    simp only [BOp.weight] at hW hT hself ⊢
    simp only [PHeaps.step, BHeaps.step, hget]
    cases hi : c.hs[i]? with
    | none => exact hself
    | some p =>
      cases hj : c.hs[j]? with
      | none => exact hself
      | some g =>
        have hg := hmem hj
        simp only [Option.map_some]
        split
        · rename_i hk
          rw [hg.top, itemAt_eq hg.null (by have := hg.le; omega), pure_bind]
          exact Alike.bind (PHeap.insert_alike ((hmem hi).mono hT) (by have := (hmem hi).size; omega) _ hW) fun a b h => Alike.pure (PHeaps.Rel.set hc hT i h.2.1 c.seen)
        · exact hself
  | pop i =>
    simp only [PHeaps.step, BHeaps.step, hget]
    cases hi : c.hs[i]? with
    | none => exact hself
    | some p =>
      have hp := hmem hi
      have h1 := hp.le
      simp only [Option.map_some]
      split
      · rename_i hk
        unfold PHeap.pop BHeap.pop
        rw [hp.top, itemAt_eq hp.null (by omega), itemAt_eq hp.null (by omega), Nat.zero_mul, Nat.add_zero]
        simp only [bind_assoc, pure_bind]
        refine Alike.same _ fun root => Alike.same _ fun o1 => Alike.same _ fun o2 => ?_
        rw [PHeap.percolateDown_eq hp.null (by omega) _ _ (by omega)]
        refine Alike.same _ fun o3 => Alike.pure ?_
        exact PHeaps.Rel.set hc hT i (a := (c.st, o3, ⟨⟨p.h.size - 1, p.h.cap, p.h.beg⟩, _⟩)) (b := (c.st, o3, ⟨p.h.size - 1, p.h.cap, p.h.beg⟩))
          ⟨rfl, rfl, rfl, rfl, by show p.h.size - 1 ≤ p.h.cap; omega, hp.null, by show p.h.size - 1 ≤ T + _; have := hp.size; omega, by show p.h.cap ≤ 2 * (T + _); have := hp.cap; omega⟩ _
      · exact hself
  | peek i =>
    simp only [PHeaps.step, BHeaps.step, hget]
    cases hi : c.hs[i]? with
    | none => exact hself
    | some p =>
      have hp := hmem hi
      have h1 := hp.le
      simp only [Option.map_some]
      split
      · unfold PHeap.peek BHeap.peek
        rw [hp.top, itemAt_eq hp.null (by omega), Nat.zero_mul, Nat.add_zero, pure_bind]
        exact Alike.same _ fun x => Alike.pure ⟨rfl, fun p hp => (hc p hp).mono hT⟩
      · exact hself
  | find i v =>
    simp only [PHeaps.step, BHeaps.step, hget]
    cases hi : c.hs[i]? with
    | none => exact hself
    | some p =>
      have hp := hmem hi
      have h1 := hp.le
      simp only [Option.map_some]
      rw [hp.top, PHeap.find_eq hp.null _ _ _ _ (by omega), ptrAt_eq h1]
      exact Alike.same _ fun k => Alike.pure ⟨rfl, fun p hp => (hc p hp).mono hT⟩
  | clear i =>
    simp only [PHeaps.step, BHeaps.step, hget]
    cases hi : c.hs[i]? with
    | none => exact hself
    | some p =>
      have hp := hmem hi
      have h1 := hp.le
      simp only [Option.map_some]
      unfold PHeap.clear BHeap.clear
      rw [hp.top, PHeap.destroyAll_eq hp.null _ _ _ (by omega)]
      simp only [bind_assoc, pure_bind]
      refine Alike.same _ fun o' => Alike.pure ?_
      exact PHeaps.Rel.set hc hT i (a := (c.st, o', ⟨⟨0, p.h.cap, p.h.beg⟩, _⟩)) (b := (c.st, o', ⟨0, p.h.cap, p.h.beg⟩))
        ⟨rfl, rfl, rfl, rfl, Nat.zero_le _, hp.null, Nat.zero_le _, by show p.h.cap ≤ 2 * (T + _); have := hp.cap; omega⟩ _

theorem phrun (N : Nat) (hW : ∀ m, m ≤ 2 * N → E.size * m < W64) (ops : List (BOp α)) : ∀ (T : Nat) (c : PHeaps A α), (∀ p ∈ c.hs, p.Ok E.size T) →
    T + hweights ops ≤ N → Alike (PHeaps.Rel E.size N) (c.run E comp eq ops) (c.base.run E comp eq ops) := by
  induction ops with
  | nil => exact fun T c hc hN => Alike.pure ⟨rfl, fun p hp => (hc p hp).mono (by simp only [hweights] at hN; omega)⟩
  | cons o os ih =>
    intro T c hc hN
    simp only [hweights] at hN
    refine Alike.bind (phstep c o hc (fun m hm => hW m (by omega))) fun a b h => ?_
    obtain ⟨rfl, h⟩ := h
    exact ih _ a h (by omega)
end
end KTL
