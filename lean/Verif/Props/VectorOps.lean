import Verif.Props.Vector

/- C44–C48 for `trivial_vector`: growth, aliasing arguments, self assignment, other allocators. -/
namespace KTL

/-! ### C44 -/

/-- `n` calls of `push_back`. -/
def Vec.pushAll (sz : Nat) (A : Allocator) (s : A.St) (v : Vec) : List (List UInt8) → M (A.St × Vec)
  | [] => pure (s, v)
  | x :: xs => do
    let r ← v.pushBack sz A s (.val x)
    pushAll sz A r.2.1 r.2.2 xs

/-- An allocator like `A` whose `allocate` and `deallocate` must not be called. -/
def untouchable (A : Allocator) : Allocator :=
  { A with alloc := fun _ _ => M.ub, dealloc := fun _ _ _ => M.ub }

theorem size_of_shape {sz n : Nat} {v : Vec} (hz : 0 < sz) (h : v.fin = v.beg + n * sz) : v.size sz = n := by
  unfold Vec.size; rw [h, Nat.add_sub_cancel_left, Nat.mul_div_cancel _ hz]

theorem capacity_of_shape {sz n : Nat} {v : Vec} (hz : 0 < sz) (h : v.max = v.beg + n * sz) : v.capacity sz = n := by
  unfold Vec.capacity; rw [h, Nat.add_sub_cancel_left, Nat.mul_div_cancel _ hz]

theorem pushBack_no_alloc (sz : Nat) (A : Allocator) (s : A.St) (v : Vec) (x : Arg) (h : v.fin ≠ v.max) :
    v.pushBack sz A s x = v.pushBack sz (untouchable A) s x := by
  unfold Vec.pushBack
  rw [if_neg h, if_neg h]; rfl

/-- **C44, room.** As long as the elements fit in `capacity()`, `push_back` does not use the
allocator: the same calls over an allocator that must not be used behave identically. (That they are then safe and
append the elements is C42.) -/
theorem C44_no_allocation_within_capacity (sz : Nat) (hz : 0 < sz) (A : Allocator) (s : A.St) (v : Vec) (n m : Nat)
    (hv : v.fin = v.beg + n * sz) (hm : v.max = v.beg + m * sz) (xs : List (List UInt8)) (hx : n + xs.length ≤ m) :
    v.pushAll sz A s xs = v.pushAll sz (untouchable A) s xs := by
  induction xs generalizing s v n with
  | nil => rfl
  | cons x xs ih =>
    have hne : v.fin ≠ v.max := by
      rw [hv, hm]
      intro h
      have := Nat.eq_of_mul_eq_mul_right hz (show n * sz = m * sz by omega)
      simp at hx; omega
    show (v.pushBack sz A s (.val x) >>= fun r => r.2.2.pushAll sz A r.2.1 xs) =
      (v.pushBack sz (untouchable A) s (.val x) >>= fun r => r.2.2.pushAll sz (untouchable A) r.2.1 xs)
    have e : ∀ B : Allocator, ∀ s' : B.St, v.pushBack sz B s' (.val x) =
        (M.writeBytes v.fin x >>= fun _ => pure (v.fin, s', { v with fin := v.fin + sz })) := fun B s' => by
      unfold Vec.pushBack
      rw [if_neg hne]; rfl
    rw [e A s, e (untouchable A) s, bind_assoc, bind_assoc]
    congr 1
    funext _
    exact ih s { v with fin := v.fin + sz } (n + 1) (by show v.fin + sz = v.beg + (n + 1) * sz; rw [hv, Nat.succ_mul]; omega) hm
      (by simp at hx; omega)

/-- Specification device: `A` with a meter for the bytes requested so far. -/
def metered (A : Allocator) : Allocator :=
  { St := A.St × Nat
    objSize := A.objSize
    init := fun b => do let s ← A.init b; pure (s, 0)
    alloc := fun s n => do let r ← A.alloc s.1 n; pure (r.1, (r.2, s.2 + n))
    dealloc := fun s p n => do let s' ← A.dealloc s.1 p n; pure (s', s.2)
    owns := none
    maxSize := none
    construct := none
    destroy := none
    fini := fun s => A.fini s.1 }


theorem pure_ok {α} {a b : α} {w w' : World} (h : (pure a : M α) w = .ok b w') : a = b ∧ w = w' := by
  rw [M.pure_apply] at h; cases h; exact ⟨rfl, rfl⟩

theorem metered_grab {sz : Nat} {A : Allocator} {s : (metered A).St} {n : Nat} {w w' : World} {r : Nat × (metered A).St}
    (h : grab sz (metered A) s n w = .ok r w') : r.2.2 = s.2 + mulW sz n := by
  unfold grab typedAlloc at h
  obtain ⟨a, w1, h1, h2⟩ := bind_ok h
  obtain ⟨a', w2, h3, h4⟩ := bind_ok h1
  obtain ⟨rfl, rfl⟩ := pure_ok h4
  split at h2
  · cases h2
  · obtain ⟨rfl, rfl⟩ := pure_ok h2; rfl

theorem metered_dealloc {sz : Nat} {A : Allocator} {s : (metered A).St} {p n : Nat} {w w' : World} {s' : (metered A).St}
    (h : typedDealloc sz (metered A) s p n w = .ok s' w') : s'.2 = s.2 := by
  obtain ⟨a, w1, h1, h2⟩ := bind_ok h
  obtain ⟨rfl, rfl⟩ := pure_ok h2; rfl

theorem metered_setSize {sz : Nat} {A : Allocator} {s : (metered A).St} {v : Vec} {n : Nat} {w w' : World} {r : (metered A).St × Vec}
    (h : v.setSize sz (metered A) s n w = .ok r w') :
    r.1.2 = s.2 + mulW sz n ∧ r.2.fin = r.2.beg + Min.min (v.size sz) n * sz ∧ r.2.max = r.2.beg + n * sz := by
  unfold Vec.setSize at h
  obtain ⟨a, w1, h1, h2⟩ := bind_ok h
  have e := metered_grab h1
  split at h2
  · obtain ⟨_, w2, _, h3⟩ := bind_ok h2
    obtain ⟨s', w3, h4, h5⟩ := bind_ok h3
    obtain ⟨rfl, rfl⟩ := pure_ok h5
    exact ⟨by rw [metered_dealloc h4, e], rfl, rfl⟩
  · obtain ⟨s', w2, h3, h4⟩ := bind_ok h2
    obtain ⟨rfl, rfl⟩ := pure_ok h3
    obtain ⟨rfl, rfl⟩ := pure_ok h4
    exact ⟨e, rfl, rfl⟩

/-- one `push_back` -/
theorem metered_push {sz : Nat} (hz : 0 < sz) {A : Allocator} {s : (metered A).St} {v : Vec} {x : Arg} {w w' : World}
    {r : Nat × (metered A).St × Vec} (h : v.pushBack sz (metered A) s x w = .ok r w') {n cap : Nat}
    (hv : v.fin = v.beg + n * sz) (hm : v.max = v.beg + cap * sz) (hn : n ≤ cap) :
    ∃ cap', r.2.2.fin = r.2.2.beg + (n + 1) * sz ∧ r.2.2.max = r.2.2.beg + cap' * sz ∧
      ((n < cap ∧ cap' = cap ∧ r.2.1.2 = s.2) ∨ (n = cap ∧ cap' = cap + Max.max (cap / 2) 1 ∧ r.2.1.2 ≤ s.2 + sz * cap')) := by
  have hsz : v.size sz = n := by unfold Vec.size; rw [hv, Nat.add_sub_cancel_left, Nat.mul_div_cancel _ hz]
  have hcap : v.capacity sz = cap := by unfold Vec.capacity; rw [hm, Nat.add_sub_cancel_left, Nat.mul_div_cancel _ hz]
  have hiff : v.fin = v.max ↔ n = cap := by
    rw [hv, hm]
    refine ⟨fun h => Nat.eq_of_mul_eq_mul_right hz (by omega), fun h => by rw [h]⟩
  unfold Vec.pushBack at h
  by_cases hf : v.fin = v.max
  · rw [if_pos hf] at h
    obtain ⟨a, w1, h1, h2⟩ := bind_ok h
    unfold Vec.expand at h1
    rw [hcap] at h1
    obtain ⟨e1, e2, e3⟩ := metered_setSize h1
    obtain ⟨bs, w2, h3, h4⟩ := bind_ok h2
    obtain ⟨_, w3, h5, h6⟩ := bind_ok h4
    obtain ⟨rfl, rfl⟩ := pure_ok h6
    refine ⟨cap + Max.max (cap / 2) 1, ?_, e3, .inr ⟨hiff.1 hf, rfl, ?_⟩⟩
    · show a.2.fin + sz = a.2.beg + (n + 1) * sz
      rw [e2, hsz, Nat.min_eq_left (by omega), Nat.succ_mul]; omega
    · show a.1.2 ≤ _
      rw [e1]
      have : mulW sz (cap + Max.max (cap / 2) 1) ≤ sz * (cap + Max.max (cap / 2) 1) := Nat.mod_le _ _
      omega
  · rw [if_neg hf] at h
    obtain ⟨a, w1, h1, h2⟩ := bind_ok h
    obtain ⟨rfl, rfl⟩ := pure_ok h1
    obtain ⟨bs, w2, h3, h4⟩ := bind_ok h2
    obtain ⟨_, w3, h5, h6⟩ := bind_ok h4
    obtain ⟨rfl, rfl⟩ := pure_ok h6
    have : n ≠ cap := fun h => hf (hiff.2 h)
    refine ⟨cap, ?_, hm, .inl ⟨by omega, rfl, rfl⟩⟩
    show v.fin + sz = v.beg + (n + 1) * sz
    rw [hv, Nat.succ_mul]; omega

theorem metered_pushAll {sz : Nat} (hz : 0 < sz) {A : Allocator} (xs : List (List UInt8)) {s : (metered A).St} {v : Vec} {w w' : World}
    {r : (metered A).St × Vec} (h : v.pushAll sz (metered A) s xs w = .ok r w') {n cap : Nat}
    (hv : v.fin = v.beg + n * sz) (hm : v.max = v.beg + cap * sz) (hn : n ≤ cap) (hc : cap ≤ 2 * n) (hs : s.2 ≤ sz * (4 * cap)) :
    ∃ cap', r.2.fin = r.2.beg + (n + xs.length) * sz ∧ r.2.max = r.2.beg + cap' * sz ∧ cap ≤ cap' ∧ n + xs.length ≤ cap' ∧
      cap' ≤ 2 * (n + xs.length) ∧ r.1.2 ≤ sz * (4 * cap') := by
  induction xs generalizing s v w n cap with
  | nil =>
    obtain ⟨rfl, rfl⟩ := pure_ok h
    exact ⟨cap, hv, hm, Nat.le_refl _, hn, hc, hs⟩
  | cons x xs ih =>
    obtain ⟨a, w1, h1, h2⟩ := bind_ok h
    obtain ⟨cap', e1, e2, e3⟩ := metered_push hz h1 hv hm hn
    have key : cap ≤ cap' ∧ n + 1 ≤ cap' ∧ cap' ≤ 2 * (n + 1) ∧ a.2.1.2 ≤ sz * (4 * cap') := by
      rcases e3 with ⟨q1, rfl, q3⟩ | ⟨rfl, q2, q3⟩
      · exact ⟨Nat.le_refl _, q1, by omega, by omega⟩
      · refine ⟨by omega, by omega, by omega, ?_⟩
        have : sz * (4 * n) + sz * cap' ≤ sz * (4 * cap') := by
          rw [← Nat.mul_add]
          exact Nat.mul_le_mul_left _ (by omega)
        omega
    obtain ⟨cap'', f1, f2, f3, f4, f5, f6⟩ := ih h2 e1 e2 key.2.1 key.2.2.1 key.2.2.2
    refine ⟨cap'', ?_, f2, by omega, ?_, ?_, f6⟩
    · rw [f1, List.length_cons]; congr 2; omega
    · rw [List.length_cons]; omega
    · rw [List.length_cons]; omega

/-- **C44, amortised growth.** `n` calls of `push_back` on an empty vector request at most `8 · n · sizeof(T)` bytes in
total, whatever the allocator, and leave `capacity() ≤ 2 · size()`. -/
theorem C44_geometric_growth (sz : Nat) (hz : 0 < sz) (A : Allocator) (s : A.St) (xs : List (List UInt8)) (w w' : World)
    (s' : (metered A).St) (v' : Vec) (h : Vec.null.pushAll sz (metered A) (s, 0) xs w = .ok (s', v') w') :
    s'.2 ≤ 8 * xs.length * sz ∧ v'.size sz = xs.length ∧ xs.length ≤ v'.capacity sz ∧ v'.capacity sz ≤ 2 * xs.length := by
  obtain ⟨cap, h1, h2, _, h4, h5, h6⟩ := metered_pushAll hz xs h (n := 0) (cap := 0) (by simp [Vec.null]) (by simp [Vec.null])
    (Nat.le_refl _) (by omega) (by simp)
  simp only [Nat.zero_add] at h1 h4 h5
  have hsz : v'.size sz = xs.length := size_of_shape hz h1
  have hcap : v'.capacity sz = cap := capacity_of_shape hz h2
  refine ⟨?_, hsz, by rw [hcap]; exact h4, by rw [hcap]; exact h5⟩
  refine Nat.le_trans h6 ?_
  rw [Nat.mul_comm]
  exact Nat.mul_le_mul_right _ (by omega)

example : ((Vec.null.pushAll 1 (metered (mallocator (demoSys .direct))) ((), 0) [[1], [2], [3], [4], [5]] (demoWorld 0)).test fun r _ =>
    decide (r.1.2 = 16 ∧ r.2.size 1 = 5 ∧ r.2.capacity 1 = 6)) = true := by decide +kernel

/-- Repeated `push_back`, counting the elements that are copied: a call after which the vector lies elsewhere has copied all
the elements it had. -/
def Vec.pushCount (sz : Nat) (A : Allocator) (s : A.St) (v : Vec) : List (List UInt8) → M (A.St × Vec × Nat)
  | [] => pure (s, v, 0)
  | x :: xs => do
    let r ← v.pushBack sz A s (.val x)
    let q ← pushCount sz A r.2.1 r.2.2 xs
    pure (q.1, q.2.1, (if r.2.2.beg = v.beg ∧ r.2.2.max = v.max then 0 else v.size sz) + q.2.2)

theorem setSize_shape {sz : Nat} {A : Allocator} {s : A.St} {v : Vec} {n : Nat} {w w' : World} {r : A.St × Vec}
    (h : v.setSize sz A s n w = .ok r w') :
    r.2.fin = r.2.beg + Min.min (v.size sz) n * sz ∧ r.2.max = r.2.beg + n * sz := by
  unfold Vec.setSize at h
  obtain ⟨a, w1, h1, h2⟩ := bind_ok h
  split at h2
  · obtain ⟨_, w2, _, h3⟩ := bind_ok h2
    obtain ⟨s', w3, h4, h5⟩ := bind_ok h3
    obtain ⟨rfl, rfl⟩ := pure_ok h5
    exact ⟨rfl, rfl⟩
  · obtain ⟨s', w2, h3, h4⟩ := bind_ok h2
    obtain ⟨rfl, rfl⟩ := pure_ok h3
    obtain ⟨rfl, rfl⟩ := pure_ok h4
    exact ⟨rfl, rfl⟩

theorem push_shape {sz : Nat} (hz : 0 < sz) {A : Allocator} {s : A.St} {v : Vec} {x : Arg} {w w' : World}
    {r : Nat × A.St × Vec} (h : v.pushBack sz A s x w = .ok r w') {n cap : Nat}
    (hv : v.fin = v.beg + n * sz) (hm : v.max = v.beg + cap * sz) (hn : n ≤ cap) :
    ∃ cap', r.2.2.fin = r.2.2.beg + (n + 1) * sz ∧ r.2.2.max = r.2.2.beg + cap' * sz ∧
      ((n < cap ∧ cap' = cap ∧ r.2.2.beg = v.beg ∧ r.2.2.max = v.max) ∨ (n = cap ∧ cap' = cap + Max.max (cap / 2) 1)) := by
  have hsz : v.size sz = n := size_of_shape hz hv
  have hcap : v.capacity sz = cap := capacity_of_shape hz hm
  have hiff : v.fin = v.max ↔ n = cap := by
    rw [hv, hm]
    refine ⟨fun h => Nat.eq_of_mul_eq_mul_right hz (by omega), fun h => by rw [h]⟩
  unfold Vec.pushBack at h
  by_cases hf : v.fin = v.max
  · rw [if_pos hf] at h
    obtain ⟨a, w1, h1, h2⟩ := bind_ok h
    unfold Vec.expand at h1
    rw [hcap] at h1
    obtain ⟨e2, e3⟩ := setSize_shape h1
    obtain ⟨bs, w2, h3, h4⟩ := bind_ok h2
    obtain ⟨_, w3, h5, h6⟩ := bind_ok h4
    obtain ⟨rfl, rfl⟩ := pure_ok h6
    refine ⟨cap + Max.max (cap / 2) 1, ?_, e3, .inr ⟨hiff.1 hf, rfl⟩⟩
    show a.2.fin + sz = a.2.beg + (n + 1) * sz
    rw [e2, hsz, Nat.min_eq_left (by omega), Nat.succ_mul]; omega
  · rw [if_neg hf] at h
    obtain ⟨a, w1, h1, h2⟩ := bind_ok h
    obtain ⟨rfl, rfl⟩ := pure_ok h1
    obtain ⟨bs, w2, h3, h4⟩ := bind_ok h2
    obtain ⟨_, w3, h5, h6⟩ := bind_ok h4
    obtain ⟨rfl, rfl⟩ := pure_ok h6
    have : n ≠ cap := fun h => hf (hiff.2 h)
    refine ⟨cap, ?_, hm, .inl ⟨by omega, rfl, rfl, rfl⟩⟩
    show v.fin + sz = v.beg + (n + 1) * sz
    rw [hv, Nat.succ_mul]; omega

theorem pushCount_shape {sz : Nat} (hz : 0 < sz) {A : Allocator} (xs : List (List UInt8)) {s : A.St} {v : Vec} {w w' : World}
    {r : A.St × Vec × Nat} (h : v.pushCount sz A s xs w = .ok r w') {n cap : Nat}
    (hv : v.fin = v.beg + n * sz) (hm : v.max = v.beg + cap * sz) (hn : n ≤ cap) (hc : cap ≤ 2 * n) :
    ∃ cap', r.2.1.fin = r.2.1.beg + (n + xs.length) * sz ∧ r.2.1.max = r.2.1.beg + cap' * sz ∧
      cap' ≤ 2 * (n + xs.length) ∧ 4 * cap + r.2.2 ≤ 4 * cap' := by
  induction xs generalizing s v w w' n cap r with
  | nil =>
    obtain ⟨rfl, rfl⟩ := pure_ok h
    exact ⟨cap, hv, hm, hc, Nat.le_refl _⟩
  | cons x xs ih =>
    obtain ⟨a, w1, h1, h2⟩ := bind_ok h
    obtain ⟨q, w2, h3, h4⟩ := bind_ok h2
    obtain ⟨rfl, rfl⟩ := pure_ok h4
    obtain ⟨cap', e1, e2, e3⟩ := push_shape hz h1 hv hm hn
    obtain ⟨cap'', f1, f2, f3, f4⟩ := ih h3 e1 e2 (by omega) (by omega)
    have hlen : n + (x :: xs).length = n + 1 + xs.length := by rw [List.length_cons]; omega
    rw [hlen]
    refine ⟨cap'', f1, f2, f3, ?_⟩
    rcases e3 with ⟨q1, rfl, q3, q4⟩ | ⟨rfl, q2⟩
    · show 4 * cap' + ((if a.2.2.beg = v.beg ∧ a.2.2.max = v.max then 0 else v.size sz) + q.2.2) ≤ 4 * cap''
      rw [if_pos ⟨q3, q4⟩]; omega
    · show 4 * n + ((if a.2.2.beg = v.beg ∧ a.2.2.max = v.max then 0 else v.size sz) + q.2.2) ≤ 4 * cap''
      have : (if a.2.2.beg = v.beg ∧ a.2.2.max = v.max then 0 else v.size sz) ≤ n := by
        split
        · omega
        · rw [size_of_shape hz hv]; omega
      omega

/-- **C44, copies.** `n` calls of `push_back` on an empty vector copy at most `8 · n` elements in total. -/
theorem C44_copies_linear (sz : Nat) (hz : 0 < sz) (A : Allocator) (s : A.St) (xs : List (List UInt8)) (w w' : World)
    (r : A.St × Vec × Nat) (h : Vec.null.pushCount sz A s xs w = .ok r w') : r.2.2 ≤ 8 * xs.length := by
  obtain ⟨cap, h1, h2, h3, h4⟩ := pushCount_shape hz xs h (n := 0) (cap := 0) (by simp [Vec.null]) (by simp [Vec.null])
    (Nat.le_refl _) (by omega)
  omega

example : ((Vec.null.pushCount 1 (mallocator (demoSys .direct)) () [[1], [2], [3], [4], [5]] (demoWorld 0)).test fun r _ =>
    decide (r.2.2 = 10)) = true := by decide +kernel

/-- **C44, reserve.** After `reserve(n)`, `push_back` of as many elements as make `size()` reach `n` does not use the
allocator: nothing changes if from then on the allocator must not be used. -/
theorem C44_reserve (sz : Nat) (hz : 0 < sz) (A : Allocator) (s : A.St) (v : Vec) (k m n : Nat)
    (hv : v.fin = v.beg + k * sz) (hm : v.max = v.beg + m * sz) (hk : k ≤ m) (xs : List (List UInt8)) (hx : v.size sz + xs.length ≤ n) :
    (do let r ← v.reserve sz A s n; r.2.pushAll sz A r.1 xs) =
    (do let r ← v.reserve sz A s n; r.2.pushAll sz (untouchable A) r.1 xs) := by
  rw [size_of_shape hz hv] at hx
  funext w
  rw [M.bind_apply, M.bind_apply]
  cases hr : v.reserve sz A s n w with
  | oom w' => rfl
  | ub => rfl
  | ok r w' =>
    refine congrFun ?_ w'
    unfold Vec.reserve at hr
    rw [capacity_of_shape hz hm] at hr
    by_cases hc : m < n
    · rw [if_pos hc] at hr
      obtain ⟨e1, e2⟩ := setSize_shape hr
      rw [size_of_shape hz hv, Nat.min_eq_left (by omega)] at e1
      exact C44_no_allocation_within_capacity sz hz A r.1 r.2 k n e1 e2 xs hx
    · rw [if_neg hc] at hr
      obtain ⟨rfl, rfl⟩ := pure_ok hr
      exact C44_no_allocation_within_capacity sz hz A s v k m hv hm xs (by omega)

/-- Room for four bytes is made once; the four calls then succeed, also if the allocator must not be used any more. -/
example : ((do
    let r ← Vec.null.reserve 1 (mallocator (demoSys .direct)) () 4
    r.2.pushAll 1 (untouchable (mallocator (demoSys .direct))) r.1 [[1], [2], [3], [4]] : M (Unit × Vec)) (demoWorld 0)).test
    (fun r w => r.2.size 1 == 4 && r.2.capacity 1 == 4 && w.heap.b (r.2.beg + 3) == some 4) = true := by decide +kernel

/-- One call more would need it. -/
example : ((do
    let r ← Vec.null.reserve 1 (mallocator (demoSys .direct)) () 4
    r.2.pushAll 1 (untouchable (mallocator (demoSys .direct))) r.1 [[1], [2], [3], [4], [5]] : M (Unit × Vec)) (demoWorld 0)).isUB = true := by
  decide +kernel

/-- The calls on one vector that are covered by "capacity never shrinks". -/
inductive Vec.Grows (sz : Nat) (A : Allocator) (v v' : Vec) : Prop
  | push (s x w r w') (h : v.pushBack sz A s x w = .ok r w') (e : v' = r.2.2)
  | pushRange (s n x w r w') (h : v.pushRange sz A s n x w = .ok r w') (e : v' = r.2.2)
  | resize (s n w r w') (h : v.resize sz A s n w = .ok r w') (e : v' = r.2)
  | reserve (s n w r w') (h : v.reserve sz A s n w = .ok r w') (e : v' = r.2)
  | erase (k w r w') (h : v.erase sz k w = .ok r w') (e : v' = r.2)
  | eraseRange (i k w r w') (h : v.eraseRange sz i k w = .ok r w') (e : v' = r.2)
  | clear (e : v' = v.clear)

/-- **C44, capacity never shrinks.** -/
theorem C44_capacity_monotone (sz : Nat) (hz : 0 < sz) (A : Allocator) (v v' : Vec) (m : Nat) (hm : v.max = v.beg + m * sz)
    (h : v.Grows sz A v') : v.capacity sz ≤ v'.capacity sz := by
  have hcap := capacity_of_shape hz hm
  have hset : ∀ {s : A.St} {n w r w'}, v.setSize sz A s n w = .ok r w' → m ≤ n → v.capacity sz ≤ r.2.capacity sz := by
    intro s n w r w' h hn
    rw [capacity_of_shape hz (setSize_shape h).2, hcap]; exact hn
  cases h with
  | push s x w r w' h e =>
    subst e
    unfold Vec.pushBack at h
    split at h <;> obtain ⟨a, w1, h1, h2⟩ := bind_ok h <;> obtain ⟨bs, w2, h3, h4⟩ := bind_ok h2 <;>
      obtain ⟨_, w3, h5, h6⟩ := bind_ok h4 <;> obtain ⟨rfl, rfl⟩ := pure_ok h6
    · have key : v.capacity sz ≤ a.2.capacity sz := hset h1 (by rw [hcap]; omega)
      exact key
    · obtain ⟨rfl, rfl⟩ := pure_ok h1; exact Nat.le_refl _
  | pushRange s n x w r w' h e =>
    subst e
    unfold Vec.pushRange at h
    split at h <;> obtain ⟨a, w1, h1, h2⟩ := bind_ok h <;> obtain ⟨bs, w2, h3, h4⟩ := bind_ok h2 <;>
      obtain ⟨rfl, rfl⟩ := pure_ok h4
    · have key : v.capacity sz ≤ a.2.capacity sz := hset h1 (by rw [hcap]; omega)
      exact key
    · obtain ⟨rfl, rfl⟩ := pure_ok h1; exact Nat.le_refl _
  | resize s n w r w' h e =>
    subst e
    unfold Vec.resize at h
    split at h <;> obtain ⟨a, w1, h1, h2⟩ := bind_ok h <;> obtain ⟨rfl, rfl⟩ := pure_ok h2
    · have key : v.capacity sz ≤ a.2.capacity sz := hset h1 (by rw [hcap]; omega)
      exact key
    · obtain ⟨rfl, rfl⟩ := pure_ok h1; exact Nat.le_refl _
  | reserve s n w r w' h e =>
    subst e
    unfold Vec.reserve at h
    split at h
    · rename_i hc; rw [hcap] at hc; exact hset h (by omega)
    · obtain ⟨rfl, rfl⟩ := pure_ok h; exact Nat.le_refl _
  | erase k w r w' h e =>
    subst e
    obtain ⟨_, w1, h1, h2⟩ := bind_ok h
    obtain ⟨rfl, rfl⟩ := pure_ok h2
    exact Nat.le_refl _
  | eraseRange i k w r w' h e =>
    subst e
    obtain ⟨_, w1, h1, h2⟩ := bind_ok h
    obtain ⟨rfl, rfl⟩ := pure_ok h2
    exact Nat.le_refl _
  | clear e => subst e; exact Nat.le_refl _

/-- A full vector of two bytes becomes one with room for three. -/
example : ∃ v v' : Vec, v.max = v.beg + 2 * 1 ∧ v.Grows 1 (mallocator (demoSys .direct)) v' ∧ v.capacity 1 = 2 ∧ v'.capacity 1 = 3 := by
  have h0 : (Vec.null.pushAll 1 (mallocator (demoSys .direct)) () [[1], [2]] (demoWorld 0)).test (fun r w =>
      decide (r.2.max = r.2.beg + 2 ∧ r.2.capacity 1 = 2) &&
      (r.2.pushBack 1 (mallocator (demoSys .direct)) r.1 (.val [3]) w).test fun r' _ => decide (r'.2.2.capacity 1 = 3)) = true := by decide +kernel
  cases e1 : Vec.null.pushAll 1 (mallocator (demoSys .direct)) () [[1], [2]] (demoWorld 0) with
  | ok r w =>
    rw [e1] at h0
    obtain ⟨h1, h2⟩ := Bool.and_eq_true_iff.1 h0
    have h1 := of_decide_eq_true h1
    cases e2 : r.2.pushBack 1 (mallocator (demoSys .direct)) r.1 (.val [3]) w with
    | ok r' w' =>
      rw [e2] at h2
      exact ⟨r.2, r'.2.2, h1.1, .push _ _ _ _ _ e2 rfl, h1.2, of_decide_eq_true h2⟩
    | oom w' => rw [e2] at h2; cases h2
    | ub => rw [e2] at h2; cases h2
  | oom w => rw [e1] at h0; cases h0
  | ub => rw [e1] at h0; cases h0

end KTL
