import Verif.Containers.Unchecked
import Verif.Base.Post
import Verif.Spec.Demo
import Verif.Props.VectorOps

/- C72: what a container does when its allocator refuses a request. -/
namespace KTL

/-- The allocator returns null for `n` objects (`n` not zero), and there is no memory at address zero. -/
structure Refused (sz : Nat) (A : Allocator) (s : A.St) (n : Nat) (w : World) (s' : A.St) (w' : World) : Prop where
  pos : n ≠ 0
  null : typedAlloc sz A s n w = .ok (0, s') w'
  page : w'.heap.b 0 = none

/-! ### Proof machinery -/

theorem readBytes_ok_or_ub (p n : Nat) (w : World) : (∃ bs, bs.length = n ∧ M.readBytes p n w = .ok bs w) ∨ M.readBytes p n w = .ub := by
  induction n generalizing p with
  | zero => exact .inl ⟨[], rfl, rfl⟩
  | succ n ih =>
    cases hb : w.heap.b p with
    | none => right; simp only [M.readBytes, M.bind_apply, M.load, hb]
    | some v =>
      rcases ih (p + 1) with ⟨bs, hl, h⟩ | h
      · left
        refine ⟨v :: bs, by simp [hl], ?_⟩
        simp only [M.readBytes, M.bind_apply, M.load, hb, h]; rfl
      · right; simp only [M.readBytes, M.bind_apply, M.load, hb, h]

theorem writeBytes_null (bs : List UInt8) (hb : bs ≠ []) (w : World) (h0 : w.heap.b 0 = none) : M.writeBytes 0 bs w = .ub := by
  cases bs with
  | nil => exact absurd rfl hb
  | cons x xs => simp only [M.writeBytes, M.bind_apply, M.store, h0]

theorem memcpy_null (src n : Nat) (hn : 0 < n) (w : World) (h0 : w.heap.b 0 = none) : M.memcpy 0 src n w = .ub := by
  unfold M.memcpy
  split
  · rfl
  · rw [M.bind_apply]
    rcases readBytes_ok_or_ub src n w with ⟨bs, hl, h⟩ | h
    · rw [h]
      exact writeBytes_null bs (by rintro rfl; simp at hl; omega) w h0
    · rw [h]

theorem bind_ub {α β} {c : M α} {f : α → M β} {w : World} (h : c w = .ub) : (c >>= f) w = .ub := by rw [M.bind_apply, h]

theorem grab_ok {sz : Nat} {A : Allocator} {s : A.St} {n : Nat} {w w' : World} {r : Nat × A.St} (h : grab sz A s n w = .ok r w') :
    typedAlloc sz A s n w = .ok r w' := by
  obtain ⟨r1, w1, h1, h2⟩ := bind_ok h
  split at h2
  · cases h2
  · cases h2; exact h1

/-- replace the first step of a run that ended well -/
theorem bind_ok_of {α β} {c d : M α} {f g : α → M β} {w w' : World} {r : β} (h : (c >>= f) w = .ok r w') (hc : ∀ a w1, c w = .ok a w1 → d w = .ok a w1)
    (hf : ∀ a w1, f a w1 = .ok r w' → g a w1 = .ok r w') : (d >>= g) w = .ok r w' := by
  obtain ⟨a, w1, h1, h2⟩ := bind_ok h
  rw [M.bind_apply, hc a w1 h1]
  exact hf a w1 h2

section
variable {sz : Nat} {A : Allocator} {s : A.St} {w w' : World}

theorem Vec.ofSizeU_ok {n : Nat} {r} (h : Vec.ofSize sz A s n w = .ok r w') : Vec.ofSizeU sz A s n w = .ok r w' :=
  bind_ok_of h (fun _ _ => grab_ok) (fun _ _ h => h)

theorem Vec.setSizeU_ok {v : Vec} {n : Nat} {r} (h : v.setSize sz A s n w = .ok r w') : v.setSizeU sz A s n w = .ok r w' :=
  bind_ok_of h (fun _ _ => grab_ok) (fun _ _ h => h)

theorem BHeap.setSizeU_ok {α : Type} {E : Elt α} {o : Objs α} {h : BHeap} {n : Nat} {r} (hr : h.setSize E A s o n w = .ok r w') : h.setSizeU E A s o n w = .ok r w' :=
  bind_ok_of hr (fun _ _ => grab_ok) (fun _ _ h => h)
end

/-! ### The property -/

/-- **C72, partial.** As long as no request is refused, the functions as they are do what the models of the other properties do: whenever
the model of an operation ends, the operation ends with the same result and memory. (Missing: the refused requests, see below.) -/
theorem C72_served_partial (sz : Nat) (A : Allocator) (s : A.St) (w w' : World) :
    (∀ n r, Vec.ofSize sz A s n w = .ok r w' → Vec.ofSizeU sz A s n w = .ok r w') ∧
    (∀ n src r, Vec.ofRange sz A s n src w = .ok r w' → Vec.ofRangeU sz A s n src w = .ok r w') ∧
    (∀ o r, Vec.copy sz A s o w = .ok r w' → Vec.copyU sz A s o w = .ok r w') ∧
    (∀ v n r, Vec.resize sz A s v n w = .ok r w' → Vec.resizeU sz A s v n w = .ok r w') ∧
    (∀ v n r, Vec.reserve sz A s v n w = .ok r w' → Vec.reserveU sz A s v n w = .ok r w') ∧
    (∀ v x r, Vec.pushBack sz A s v x w = .ok r w' → Vec.pushBackU sz A s v x w = .ok r w') ∧
    (∀ a n r, Arr.resize sz A s a n w = .ok r w' → Arr.resizeU sz A s a n w = .ok r w') ∧
    (∀ (α : Type) (E : Elt α) comp o h x r, BHeap.insert E comp A s o h x w = .ok r w' → BHeap.insertU E comp A s o h x w = .ok r w') := by
  refine ⟨fun n r h => Vec.ofSizeU_ok h, fun n src r h => bind_ok_of h (fun _ _ => Vec.ofSizeU_ok) (fun _ _ h => h), fun o r h => bind_ok_of h (fun _ _ => Vec.ofSizeU_ok) (fun _ _ h => h),
    fun v n r h => ?_, fun v n r h => ?_, fun v x r h => ?_, fun a n r h => ?_, fun α E comp o b x r h => ?_⟩
  · unfold Vec.resize at h
    unfold Vec.resizeU
    split at h
    · rename_i hc; rw [if_pos hc]; exact bind_ok_of h (fun _ _ => Vec.setSizeU_ok) (fun _ _ h => h)
    · rename_i hc; rw [if_neg hc]; exact h
  · unfold Vec.reserve at h
    unfold Vec.reserveU
    split at h
    · rename_i hc; rw [if_pos hc]; exact Vec.setSizeU_ok h
    · rename_i hc; rw [if_neg hc]; exact h
  · unfold Vec.pushBack at h
    unfold Vec.pushBackU
    split at h
    · rename_i hc; rw [if_pos hc]; exact bind_ok_of h (fun _ _ => Vec.setSizeU_ok) (fun _ _ h => h)
    · rename_i hc; rw [if_neg hc]; exact h
  · unfold Arr.resize at h
    unfold Arr.resizeU
    split at h
    · rename_i hc; rw [if_pos hc]; exact bind_ok_of h (fun _ _ => grab_ok) (fun _ _ h => h)
    · rename_i hc; rw [if_neg hc]; exact h
  · unfold BHeap.insert at h
    unfold BHeap.insertU
    split at h
    · rename_i hc; rw [if_pos hc]; exact bind_ok_of h (fun _ _ => BHeap.setSizeU_ok) (fun _ _ h => h)
    · rename_i hc; rw [if_neg hc]; exact h

section
variable {sz : Nat} {A : Allocator} {s s' : A.St} {w w' : World}

/-- growing a vector that has elements, refused -/
theorem Vec.setSizeU_refused (hz : 0 < sz) {v : Vec} {n : Nat} (hb : v.beg ≠ 0) (hs : 0 < v.size sz) (hr : Refused sz A s n w s' w') :
    v.setSizeU sz A s n w = .ub := by
  have := hr.pos
  unfold Vec.setSizeU
  rw [M.bind_apply, hr.null]
  show (if _ then _ else _ : M _) w' = Res.ub
  rw [if_pos hb]
  exact bind_ub (memcpy_null _ _ (Nat.mul_pos (by omega) hz) w' hr.page)

theorem Vec.setSizeU_refused_null {n : Nat} (hr : Refused sz A s n w s' w') : Vec.null.setSizeU sz A s n w = .ok (s', ⟨0, 0, n * sz⟩) w' := by
  unfold Vec.setSizeU
  rw [M.bind_apply, hr.null]
  show Res.ok _ _ = _
  simp [Vec.size, Vec.null]

/-- **C72 is false.** `push_back` on a full vector (or an empty one without memory), when the allocator refuses to give more: the elements are copied to the
null pointer, for every allocator and every such vector. -/
theorem C72_push_false (hz : 0 < sz) (v : Vec) (hv : v = Vec.null ∨ (v.beg ≠ 0 ∧ 0 < v.size sz ∧ v.fin = v.max)) (x : List UInt8) (hx : x.length = sz)
    (hr : Refused sz A s (v.capacity sz + Max.max (v.capacity sz / 2) 1) w s' w') : v.pushBackU sz A s (.val x) w = .ub := by
  unfold Vec.pushBackU
  rcases hv with rfl | ⟨hb, hs, hf⟩
  · have e : Vec.null.expandU sz A s 1 w = .ok (s', ⟨0, 0, _⟩) w' := Vec.setSizeU_refused_null hr
    rw [if_pos (show Vec.null.fin = Vec.null.max from rfl), M.bind_apply, e]
    show (Bind.bind (m := M) (Arg.fetch sz (.val x)) _) w' = Res.ub
    rw [M.bind_apply]
    show (Bind.bind (m := M) (M.writeBytes 0 x) _) w' = Res.ub
    exact bind_ub (writeBytes_null x (by rintro rfl; simp at hx; omega) w' hr.page)
  · rw [if_pos hf]
    exact bind_ub (Vec.setSizeU_refused hz hb hs hr)

/-- **C72 is false.** `reserve(n)` on a new vector, refused: afterwards `capacity()` says `n`, but there is no memory, and the first `push_back` writes
through the null pointer. On a vector with elements, `reserve` itself does. -/
theorem C72_reserve_false (hz : 0 < sz) (n : Nat) (hr : Refused sz A s n w s' w') :
    (∃ v', Vec.null.reserveU sz A s n w = .ok (s', v') w' ∧ v'.capacity sz = n ∧ v'.beg = 0 ∧
      ∀ x : List UInt8, x.length = sz → v'.pushBackU sz A s' (.val x) w' = .ub) ∧
    ∀ v : Vec, v.beg ≠ 0 → 0 < v.size sz → v.capacity sz < n → v.reserveU sz A s n w = .ub := by
  have hn := hr.pos
  refine ⟨⟨⟨0, 0, n * sz⟩, ?_, by simp [Vec.capacity, Nat.mul_div_cancel _ hz], rfl, fun x hx => ?_⟩, fun v hb hs hc => ?_⟩
  · unfold Vec.reserveU
    rw [if_pos (by simp [Vec.capacity, Vec.null]; omega)]
    exact Vec.setSizeU_refused_null hr
  · unfold Vec.pushBackU
    rw [if_neg (by have := Nat.mul_pos (Nat.pos_of_ne_zero hn) hz; show ¬ 0 = n * sz; omega), M.bind_apply]
    show (Bind.bind (m := M) (Arg.fetch sz (.val x)) _) w' = Res.ub
    rw [M.bind_apply]
    show (Bind.bind (m := M) (M.writeBytes 0 x) _) w' = Res.ub
    exact bind_ub (writeBytes_null x (by rintro rfl; simp at hx; omega) w' hr.page)
  · unfold Vec.reserveU
    rw [if_pos hc]
    exact Vec.setSizeU_refused hz hb hs hr

/-- **C72 is false.** `trivial_vector(n)`, refused: a vector with `size() == n` and no memory, whose first element cannot be written or read; the
constructor from a nonempty range writes through the null pointer itself. -/
theorem C72_construct_false (hz : 0 < sz) (n : Nat) (hr : Refused sz A s n w s' w') :
    (∃ v', Vec.ofSizeU sz A s n w = .ok (s', v') w' ∧ v'.size sz = n ∧ v'.beg = 0 ∧ (∀ x : List UInt8, x.length = sz → v'.write sz 0 x w' = .ub) ∧ v'.read sz 0 w' = .ub) ∧
    ∀ xs : List (List UInt8), xs.length = n → (∀ x ∈ xs, x.length = sz) → Vec.ofRangeU sz A s n (.val xs.flatten) w = .ub := by
  have e : Vec.ofSizeU sz A s n w = .ok (s', ⟨0, n * sz, n * sz⟩) w' := by
    unfold Vec.ofSizeU
    rw [M.bind_apply, hr.null]
    show Res.ok _ _ = _
    simp
  refine ⟨⟨_, e, by simp [Vec.size, Nat.mul_div_cancel _ hz], rfl, fun x hx => ?_, ?_⟩, fun xs hl hx => ?_⟩
  · unfold Vec.write
    simp only [Nat.zero_mul, Nat.add_zero]
    exact writeBytes_null x (by rintro rfl; simp at hx; omega) w' hr.page
  · unfold Vec.read
    simp only [Nat.zero_mul, Nat.add_zero]
    obtain ⟨k, rfl⟩ := Nat.exists_eq_succ_of_ne_zero (Nat.ne_of_gt hz)
    simp only [M.readBytes, M.bind_apply, M.load, hr.page]
  · unfold Vec.ofRangeU
    rw [M.bind_apply, e]
    show (Bind.bind (m := M) _ _) w' = Res.ub
    have hn := hr.pos
    refine bind_ub (writeBytes_null _ (fun h => ?_) w' hr.page)
    cases xs with
    | nil => simp at hl; omega
    | cons y ys =>
      have := hx y (by simp)
      rw [List.flatten_cons, List.append_eq_nil_iff] at h
      rw [h.1] at this
      simp at this; omega

/-- **C72 is false** for `trivial_vector::resize`: on a vector with elements they are copied to the null pointer, on a new one `size()` is `n` without memory. -/
theorem C72_resize_false (hz : 0 < sz) (n : Nat) :
    (∀ v : Vec, v.beg ≠ 0 → 0 < v.size sz → v.capacity sz < n →
      Refused sz A s (v.capacity sz + Max.max (v.capacity sz / 2) (n - v.capacity sz)) w s' w' → v.resizeU sz A s n w = .ub) ∧
    (Refused sz A s n w s' w' → ∃ v', Vec.null.resizeU sz A s n w = .ok (s', v') w' ∧ v'.size sz = n ∧ v'.beg = 0) := by
  refine ⟨fun v hb hs hc hr => ?_, fun hr => ⟨⟨0, n * sz, n * sz⟩, ?_, by simp [Vec.size, Nat.mul_div_cancel _ hz], rfl⟩⟩
  · unfold Vec.resizeU
    rw [if_pos hc]
    exact bind_ub (Vec.setSizeU_refused hz hb hs hr)
  · have hn := hr.pos
    have h0 : Vec.null.capacity sz = 0 := by simp [Vec.capacity, Vec.null]
    have e : Vec.null.expandU sz A s (n - Vec.null.capacity sz) w = .ok (s', ⟨0, 0, n * sz⟩) w' := by
      unfold Vec.expandU
      rw [h0, show 0 + Max.max (0 / 2) (n - 0) = n by omega]
      exact Vec.setSizeU_refused_null hr
    unfold Vec.resizeU
    rw [if_pos (by rw [h0]; omega), M.bind_apply, e]
    show Res.ok _ _ = _
    simp

/-- **C72 is false** for `trivial_array::resize`. -/
theorem C72_array_resize_false (hz : 0 < sz) (a : Arr) (n : Nat) (hb : a.beg ≠ 0) (hs : 0 < a.size sz) (hn : a.size sz ≠ n) (hr : Refused sz A s n w s' w') :
    a.resizeU sz A s n w = .ub := by
  have := hr.pos
  unfold Arr.resizeU
  rw [if_pos hn, M.bind_apply, hr.null]
  show (if _ then _ else _ : M _) w' = Res.ub
  rw [if_pos hb]
  exact bind_ub (memcpy_null _ _ (Nat.mul_pos (by omega) hz) w' hr.page)
end

/-! ### `binary_heap` -/

section
variable {α : Type} {E : Elt α} {A : Allocator} {s s' : A.St} {w w' : World}

/-- the run ends well without mapping the null page, or has undefined behaviour -/
def KeepsNull {β} (c : M β) : Prop := ∀ w, w.heap.b 0 = none → c w = .ub ∨ ∃ r w1, c w = .ok r w1 ∧ w1.heap.b 0 = none

theorem KeepsNull.pure {β} (a : β) : KeepsNull (Pure.pure a : M β) := fun w h => .inr ⟨a, w, rfl, h⟩

theorem KeepsNull.ub {β} : KeepsNull (M.ub : M β) := fun _ _ => .inl rfl

theorem KeepsNull.bind {β γ} {c : M β} {f : β → M γ} (hc : KeepsNull c) (hf : ∀ a, KeepsNull (f a)) : KeepsNull (c >>= f) := by
  intro w h
  rw [M.bind_apply]
  rcases hc w h with e | ⟨r, w1, e, h1⟩
  · rw [e]; exact .inl rfl
  · rw [e]; exact hf r w1 h1

theorem KeepsNull.readBytes (p n : Nat) : KeepsNull (M.readBytes p n) := by
  intro w h
  rcases readBytes_ok_or_ub p n w with ⟨bs, _, e⟩ | e
  · exact .inr ⟨bs, w, e, h⟩
  · exact .inl e

theorem KeepsNull.store (p : Nat) (x : UInt8) : KeepsNull (M.store p x) := by
  intro w h
  unfold M.store
  cases hb : w.heap.b p with
  | none => exact .inl rfl
  | some v =>
    refine .inr ⟨_, _, rfl, ?_⟩
    have : (0 : Nat) ≠ p := by rintro rfl; rw [h] at hb; cases hb
    simp only [if_neg this, h]

theorem KeepsNull.writeBytes (p : Nat) (bs : List UInt8) : KeepsNull (M.writeBytes p bs) := by
  induction bs generalizing p with
  | nil => exact .pure ()
  | cons x xs ih => exact .bind (.store p x) (fun _ => ih (p + 1))

theorem KeepsNull.at (E : Elt α) (o : Objs α) (p : Nat) : KeepsNull (E.at o p) := by
  refine .bind (.readBytes _ _) (fun bs => ?_)
  cases o p with
  | none => exact .ub
  | some x =>
    dsimp only
    split
    · exact .pure _
    · exact .ub

theorem KeepsNull.moveOut (E : Elt α) (o : Objs α) (p : Nat) : KeepsNull (E.moveOut o p) :=
  .bind (.bind (.at E o p) (fun _ => .pure _)) (fun _ => .bind (.bind (.at E o p) (fun _ => .bind (.writeBytes _ _) (fun _ => .pure _))) (fun _ => .pure _))

theorem Elt.construct_null (hE : E.Ok) (o : Objs α) (v : α) (h0 : w.heap.b 0 = none) : E.construct o 0 v w = .ub := by
  unfold Elt.construct
  split
  · rfl
  · refine bind_ub (writeBytes_null _ (fun h => ?_) w h0)
    have := hE.len v
    have := hE.pos
    rw [h] at *; simp at *; omega

/-- **C72 is false** for `binary_heap::insert` on a full heap (or a new one): an element is constructed at the null pointer. -/
theorem C72_heap_insert_false (hE : E.Ok) (comp : α → α → Bool) (o : Objs α) (h : BHeap)
    (hh : h = BHeap.null ∨ (h.beg ≠ 0 ∧ 0 < h.size ∧ h.size = h.cap)) (v : α)
    (hr : Refused E.size A s (h.cap + Max.max h.cap 1) w s' w') :
    h.insertU E comp A s o (.val v) w = .ub := by
  unfold BHeap.insertU
  rcases hh with rfl | ⟨hb, hs, hf⟩
  · have e : BHeap.null.expandU E A s o 1 w = .ok (s', o, ⟨0, BHeap.null.cap + Max.max BHeap.null.cap 1, 0⟩) w' := by
      unfold BHeap.expandU BHeap.setSizeU
      rw [M.bind_apply, hr.null]
      show Res.ok _ _ = _
      simp [BHeap.null]
    rw [if_pos (show BHeap.null.size = BHeap.null.cap from rfl), M.bind_apply, e]
    show (Bind.bind (m := M) (HArg.fetch E o (.val v)) _) w' = Res.ub
    rw [M.bind_apply]
    show (Bind.bind (m := M) (E.construct o (0 + 0 * E.size) v) _) w' = Res.ub
    refine bind_ub ?_
    simp only [Nat.zero_mul, Nat.add_zero]
    exact Elt.construct_null hE o v hr.page
  · rw [if_pos hf]
    refine bind_ub ?_
    unfold BHeap.expandU BHeap.setSizeU
    rw [M.bind_apply, hr.null]
    show (if _ then _ else _ : M _) w' = Res.ub
    rw [if_pos hb]
    refine bind_ub ?_
    obtain ⟨k, hk⟩ : ∃ k, Min.min h.size (h.cap + Max.max h.cap 1) = k + 1 := ⟨Min.min h.size (h.cap + Max.max h.cap 1) - 1, by omega⟩
    rw [hk, BHeap.moveAll, M.bind_apply, Nat.zero_mul, Nat.add_zero]
    rcases KeepsNull.moveOut E o h.beg w' hr.page with e | ⟨r, w1, e, h1⟩
    · rw [e]
    · rw [e]
      show (Bind.bind (m := M) _ _) w1 = Res.ub
      simp only [Nat.zero_add]
      exact bind_ub (Elt.construct_null hE _ _ h1)
end

/-- The hypotheses are met and the program is one that anybody might write: a vector over `linear_allocator<64>` gets a third element of 16 bytes. -/
theorem C72_program_false : Res.isUB (((do
      let A := (AllocTy.linear 64).denote (demoSys .direct)
      let s ← A.init 4096
      let r1 ← Vec.null.pushBackU 16 A s (.val (List.replicate 16 1))
      let r2 ← r1.2.2.pushBackU 16 A r1.2.1 (.val (List.replicate 16 2))
      let r3 ← r2.2.2.pushBackU 16 A r2.2.1 (.val (List.replicate 16 3))
      pure r3.1) : M Nat) (demoWorld 88)) = true := by
  decide +kernel

/-- up to the third element the program is fine -/
example : Res.test (((do
      let A := (AllocTy.linear 64).denote (demoSys .direct)
      let s ← A.init 4096
      let r1 ← Vec.null.pushBackU 16 A s (.val (List.replicate 16 1))
      let r2 ← r1.2.2.pushBackU 16 A r1.2.1 (.val (List.replicate 16 2))
      pure (r2.2.2, r2.2.2.size 16, r2.2.2.capacity 16)) : M (Vec × Nat × Nat)) (demoWorld 88))
    (fun r _ => decide (r.1.beg ≠ 0 ∧ r.1.fin = r.1.max) && r.2 == (2, 2)) = true := by
  decide +kernel

/-- the hypothesis of the theorems about refused requests is met: five elements of 16 bytes do not fit in 64 -/
example : ∃ (A : Allocator) (s s' : A.St) (w w' : World), Refused 16 A s 5 w s' w' := by
  have h : Res.test (((do
      let A := (AllocTy.linear 64).denote (demoSys .direct)
      let s ← A.init 4096
      let r ← typedAlloc 16 A s 5
      pure r.1) : M Nat) (demoWorld 88)) (fun p w => p == 0 && (w.heap.b 0).isNone) = true := by decide +kernel
  revert h
  generalize (AllocTy.linear 64).denote (demoSys .direct) = A
  intro h
  rw [M.bind_apply] at h
  cases e : A.init 4096 (demoWorld 88) with
  | oom w => rw [e] at h; cases h
  | ub => rw [e] at h; cases h
  | ok s w =>
    rw [e] at h
    simp only at h
    rw [M.bind_apply] at h
    cases e1 : typedAlloc 16 A s 5 w with
    | oom w => rw [e1] at h; cases h
    | ub => rw [e1] at h; cases h
    | ok r w1 =>
      rw [e1] at h
      have h' : (r.1 == 0 && (w1.heap.b 0).isNone) = true := h
      simp only [Bool.and_eq_true, beq_iff_eq, Option.isNone_iff_eq_none] at h'
      exact ⟨A, s, r.2, w, w1, by decide, by rw [e1, ← h'.1], h'.2⟩

end KTL
