import Verif.Props.BinaryHeap
import Verif.Props.VectorOps

/- C68, C69 for `binary_heap`: memory growth and number of comparisons. -/
namespace KTL
variable {α : Type}

/-! ### C68 -/

/-- one `insert` where there is room: the allocator is not part of it -/
theorem BHeap.insert_room (E : Elt α) (comp : α → α → Bool) (B : Allocator) (s : B.St) (o : Objs α) (h : BHeap) (x : HArg α)
    (hn : h.size ≠ h.cap) : h.insert E comp B s o x = (do
      let v ← x.fetch E o
      let o1 ← E.construct o (h.beg + h.size * E.size) v
      let u ← percolateUp E comp h.beg h.size o1
      pure (h.beg + u.1 * E.size, s, u.2, { h with size := h.size + 1 })) := by
  unfold BHeap.insert
  rw [if_neg hn]; rfl

/-- **C68, room.** As long as the elements fit in the capacity, `insert` does not use the allocator: the same calls over an
allocator that must not be used behave identically. -/
theorem C68_no_allocation_within_capacity (E : Elt α) (comp : α → α → Bool) (A : Allocator) (s : A.St) (o : Objs α) (h : BHeap)
    (vs : List α) (hv : h.size + vs.length ≤ h.cap) :
    h.insertAll E comp A s o vs = h.insertAll E comp (untouchable A) s o vs := by
  induction vs generalizing s o h with
  | nil => rfl
  | cons v vs ih =>
    have hne : h.size ≠ h.cap := by simp at hv; omega
    show (h.insert E comp A s o (.val v) >>= fun r => r.2.2.2.insertAll E comp A r.2.1 r.2.2.1 vs) =
      (h.insert E comp (untouchable A) s o (.val v) >>= fun r => r.2.2.2.insertAll E comp (untouchable A) r.2.1 r.2.2.1 vs)
    rw [BHeap.insert_room E comp A s o h _ hne, BHeap.insert_room E comp (untouchable A) s o h _ hne]
    simp only [bind_assoc, pure_bind]
    congr 1; funext v'
    congr 1; funext o1
    congr 1; funext u
    exact ih s u.2 { h with size := h.size + 1 } (by simp at hv ⊢; omega)

theorem metered_eltDealloc {E : Elt α} {A : Allocator} {s : (metered A).St} {o : Objs α} {p n : Nat} {w w' : World}
    {r : (metered A).St × Objs α} (h : E.dealloc (metered A) s o p n w = .ok r w') : r.1.2 = s.2 := by
  unfold Elt.dealloc at h
  split at h
  · cases h
  · obtain ⟨a, w1, h1, h2⟩ := bind_ok h
    obtain ⟨rfl, rfl⟩ := pure_ok h2
    exact metered_dealloc h1

theorem BHeap.setSize_shape {E : Elt α} {A : Allocator} {s : A.St} {o : Objs α} {h : BHeap} {n : Nat} {w w' : World}
    {r : A.St × Objs α × BHeap} (hr : h.setSize E A s o n w = .ok r w') : r.2.2.size = Min.min h.size n ∧ r.2.2.cap = n := by
  unfold BHeap.setSize at hr
  obtain ⟨a, w1, h1, h2⟩ := bind_ok hr
  split at h2
  · obtain ⟨o1, w2, _, h2⟩ := bind_ok h2
    obtain ⟨o2, w3, _, h2⟩ := bind_ok h2
    obtain ⟨x, w4, _, h2⟩ := bind_ok h2
    obtain ⟨rfl, rfl⟩ := pure_ok h2
    exact ⟨rfl, rfl⟩
  · obtain ⟨x, w4, _, h2⟩ := bind_ok h2
    obtain ⟨rfl, rfl⟩ := pure_ok h2
    exact ⟨rfl, rfl⟩

theorem metered_heapSetSize {E : Elt α} {A : Allocator} {s : (metered A).St} {o : Objs α} {h : BHeap} {n : Nat} {w w' : World}
    {r : (metered A).St × Objs α × BHeap} (hr : h.setSize E (metered A) s o n w = .ok r w') : r.1.2 = s.2 + mulW E.size n := by
  unfold BHeap.setSize at hr
  obtain ⟨a, w1, h1, h2⟩ := bind_ok hr
  have e := metered_grab h1
  split at h2
  · obtain ⟨o1, w2, _, h2⟩ := bind_ok h2
    obtain ⟨o2, w3, _, h2⟩ := bind_ok h2
    obtain ⟨x, w4, h3, h2⟩ := bind_ok h2
    obtain ⟨rfl, rfl⟩ := pure_ok h2
    show x.1.2 = _
    rw [metered_eltDealloc h3, e]
  · obtain ⟨x, w4, h3, h2⟩ := bind_ok h2
    obtain ⟨rfl, rfl⟩ := pure_ok h3
    obtain ⟨rfl, rfl⟩ := pure_ok h2
    exact e

/-- one `insert` -/
theorem BHeap.insert_shape {E : Elt α} {comp : α → α → Bool} {A : Allocator} {s : A.St} {o : Objs α} {h : BHeap} {x : HArg α}
    {w w' : World} {r : Nat × A.St × Objs α × BHeap} (hr : h.insert E comp A s o x w = .ok r w') (hle : h.size ≤ h.cap) :
    r.2.2.2.size = h.size + 1 ∧
      ((h.size < h.cap ∧ r.2.2.2.cap = h.cap ∧ r.2.2.2.beg = h.beg ∧ r.2.1 = s) ∨
       (h.size = h.cap ∧ r.2.2.2.cap = h.cap + Max.max h.cap 1 ∧
        ∃ (q : A.St × Objs α × BHeap) (w1 : World), h.setSize E A s o (h.cap + Max.max h.cap 1) w = .ok q w1 ∧ r.2.1 = q.1)) := by
  by_cases hn : h.size = h.cap
  · unfold BHeap.insert at hr
    rw [if_pos hn] at hr
    obtain ⟨q, w1, h1, hr⟩ := bind_ok hr
    obtain ⟨e1, e2⟩ := BHeap.setSize_shape h1
    obtain ⟨v, w2, _, hr⟩ := bind_ok hr
    obtain ⟨o1, w3, _, hr⟩ := bind_ok hr
    obtain ⟨u, w4, _, hr⟩ := bind_ok hr
    obtain ⟨rfl, rfl⟩ := pure_ok hr
    refine ⟨?_, .inr ⟨hn, e2, q, w1, h1, rfl⟩⟩
    show q.2.2.size + 1 = _
    rw [e1, Nat.min_eq_left (by omega)]
  · rw [BHeap.insert_room _ _ _ _ _ _ _ hn] at hr
    obtain ⟨v, w2, _, hr⟩ := bind_ok hr
    obtain ⟨o1, w3, _, hr⟩ := bind_ok hr
    obtain ⟨u, w4, _, hr⟩ := bind_ok hr
    obtain ⟨rfl, rfl⟩ := pure_ok hr
    exact ⟨rfl, .inl ⟨by omega, rfl, rfl, rfl⟩⟩

theorem metered_insertAll {E : Elt α} {comp : α → α → Bool} {A : Allocator} (vs : List α) {s : (metered A).St} {o : Objs α} {h : BHeap}
    {w w' : World} {r : (metered A).St × Objs α × BHeap} (hr : h.insertAll E comp (metered A) s o vs w = .ok r w')
    (hle : h.size ≤ h.cap) (hc : h.cap ≤ 2 * h.size) (hs : s.2 ≤ E.size * (2 * h.cap)) :
    r.2.2.size = h.size + vs.length ∧ h.size + vs.length ≤ r.2.2.cap ∧ r.2.2.cap ≤ 2 * (h.size + vs.length) ∧
      r.1.2 ≤ E.size * (2 * r.2.2.cap) := by
  induction vs generalizing s o h w with
  | nil =>
    obtain ⟨rfl, rfl⟩ := pure_ok hr
    exact ⟨rfl, hle, hc, hs⟩
  | cons v vs ih =>
    obtain ⟨a, w1, h1, h2⟩ := bind_ok hr
    obtain ⟨e1, e2⟩ := BHeap.insert_shape h1 hle
    have key : a.2.2.2.size ≤ a.2.2.2.cap ∧ a.2.2.2.cap ≤ 2 * a.2.2.2.size ∧ a.2.1.2 ≤ E.size * (2 * a.2.2.2.cap) := by
      rcases e2 with ⟨q1, q2, _, q3⟩ | ⟨q1, q2, q, w2, q3, q4⟩
      · exact ⟨by omega, by omega, by rw [q3, q2]; exact hs⟩
      · refine ⟨by omega, by omega, ?_⟩
        have := metered_heapSetSize q3
        rw [q4, this, q2]
        have : mulW E.size (h.cap + Max.max h.cap 1) ≤ E.size * (h.cap + Max.max h.cap 1) := Nat.mod_le _ _
        have h3 : E.size * (2 * h.cap) + E.size * (h.cap + Max.max h.cap 1) ≤ E.size * (2 * (h.cap + Max.max h.cap 1)) := by
          rw [← Nat.mul_add]
          exact Nat.mul_le_mul_left _ (by omega)
        omega
    obtain ⟨f1, f2, f3, f4⟩ := ih h2 key.1 key.2.1 key.2.2
    rw [e1] at f1 f2 f3
    rw [List.length_cons]
    exact ⟨by omega, by omega, by omega, f4⟩

/-- **C68, amortised growth.** `n` calls of `insert` on an empty heap request at most `4 · n · sizeof(T)` bytes in total,
whatever the allocator, the comparator and the element type, and leave a capacity of at most `2 · n`. -/
theorem C68_geometric_growth (E : Elt α) (comp : α → α → Bool) (A : Allocator) (s : A.St) (o : Objs α) (vs : List α) (w w' : World)
    (s' : (metered A).St) (o' : Objs α) (h' : BHeap) (hr : BHeap.null.insertAll E comp (metered A) (s, 0) o vs w = .ok (s', o', h') w') :
    s'.2 ≤ 4 * vs.length * E.size ∧ h'.size = vs.length ∧ vs.length ≤ h'.cap ∧ h'.cap ≤ 2 * vs.length := by
  obtain ⟨h1, h2, h3, h4⟩ := metered_insertAll vs hr (by simp [BHeap.null]) (by simp [BHeap.null]) (by simp)
  simp only [BHeap.null, Nat.zero_add] at h1 h2 h3
  refine ⟨Nat.le_trans h4 ?_, h1, h2, h3⟩
  rw [Nat.mul_comm]
  exact Nat.mul_le_mul_right _ (show 2 * h'.cap ≤ _ by omega)

/-- five elements: requests for 1, 2, 4 and 8 elements -/
example : ((BHeap.null.insertAll demoByte demoLess (metered (mallocator (demoSys .direct))) ((), 0) (fun _ => none) [5, 1, 4, 2, 3] (demoWorld 0)).test fun r _ =>
    decide (r.1.2 = 15 ∧ r.2.2.size = 5 ∧ r.2.2.cap = 8)) = true := by decide +kernel

/-- **C68, reserve.** After `reserve(n)` the capacity is at least `n`, and inserting as many elements as make the size reach
`n` does not use the allocator: nothing changes if from then on the allocator must not be used. -/
theorem C68_reserve (E : Elt α) (comp : α → α → Bool) (A : Allocator) (s : A.St) (o : Objs α) (h : BHeap) (n : Nat)
    (vs : List α) (hv : h.size + vs.length ≤ n) :
    (do let r ← h.reserve E A s o n; r.2.2.insertAll E comp A r.1 r.2.1 vs) =
    (do let r ← h.reserve E A s o n; r.2.2.insertAll E comp (untouchable A) r.1 r.2.1 vs) := by
  funext w
  rw [M.bind_apply, M.bind_apply]
  cases hr : h.reserve E A s o n w with
  | oom w' => rfl
  | ub => rfl
  | ok r w' =>
    refine congrFun (C68_no_allocation_within_capacity E comp A r.1 r.2.1 r.2.2 vs ?_) w'
    unfold BHeap.reserve at hr
    by_cases hc : h.cap < n
    · rw [if_pos hc] at hr
      obtain ⟨e1, e2⟩ := BHeap.setSize_shape hr
      omega
    · rw [if_neg hc] at hr
      obtain ⟨rfl, rfl⟩ := pure_ok hr
      show h.size + vs.length ≤ h.cap
      omega

/-- the calls that change one heap -/
inductive BHeap.Grows (E : Elt α) (comp : α → α → Bool) (A : Allocator) (h h' : BHeap) : Prop
  | insert (s o x w r w') (hr : h.insert E comp A s o x w = .ok r w') (e : h' = r.2.2.2)
  | reserve (s o n w r w') (hr : h.reserve E A s o n w = .ok r w') (e : h' = r.2.2)
  | pop (o w r w') (hr : h.pop E comp o w = .ok r w') (e : h' = r.2.2)
  | clear (o w r w') (hr : h.clear E o w = .ok r w') (e : h' = r.2)

/-- **C68, the capacity never shrinks**, and the size stays within it. -/
theorem C68_capacity_monotone (E : Elt α) (comp : α → α → Bool) (A : Allocator) (h h' : BHeap) (hle : h.size ≤ h.cap)
    (hg : h.Grows E comp A h') : h.cap ≤ h'.cap ∧ h'.size ≤ h'.cap := by
  cases hg with
  | insert s o x w r w' hr e =>
    subst e
    obtain ⟨e1, ⟨q1, q2, _⟩ | ⟨q1, q2, _⟩⟩ := BHeap.insert_shape hr hle <;> omega
  | reserve s o n w r w' hr e =>
    subst e
    unfold BHeap.reserve at hr
    split at hr
    · obtain ⟨e1, e2⟩ := BHeap.setSize_shape hr
      omega
    · obtain ⟨rfl, rfl⟩ := pure_ok hr
      exact ⟨Nat.le_refl _, hle⟩
  | pop o w r w' hr e =>
    subst e
    unfold BHeap.pop at hr
    obtain ⟨v, w1, _, hr⟩ := bind_ok hr
    obtain ⟨o1, w2, _, hr⟩ := bind_ok hr
    obtain ⟨o2, w3, _, hr⟩ := bind_ok hr
    obtain ⟨o3, w4, _, hr⟩ := bind_ok hr
    obtain ⟨rfl, rfl⟩ := pure_ok hr
    exact ⟨Nat.le_refl _, Nat.le_trans (Nat.sub_le _ _) hle⟩
  | clear o w r w' hr e =>
    subst e
    obtain ⟨o1, w1, _, hr⟩ := bind_ok hr
    obtain ⟨rfl, rfl⟩ := pure_ok hr
    exact ⟨Nat.le_refl _, Nat.zero_le _⟩

/-! ### C69 -/

/-- What `f` does with a comparator depends on at most `k` of its answers: for every comparator and state there are at most `k`
questions such that any other comparator with the same answers to these leads to the same outcome (result, memory, and also undefined
behaviour). -/
def Asks {β : Type} (k : Nat) (f : (α → α → Bool) → M β) : Prop :=
  ∀ (comp : α → α → Bool) (w : World), ∃ Q : List (α × α), Q.length ≤ k ∧
    ∀ comp' : α → α → Bool, (∀ q ∈ Q, comp' q.1 q.2 = comp q.1 q.2) → f comp' w = f comp w

theorem Asks.const {β : Type} {f : M β} : Asks (α := α) 0 (fun _ => f) := fun _ _ => ⟨[], Nat.le_refl _, fun _ _ => rfl⟩

theorem Asks.mono {β : Type} {k l : Nat} {f : (α → α → Bool) → M β} (h : Asks k f) (hk : k ≤ l) : Asks l f := fun comp w =>
  let ⟨Q, h1, h2⟩ := h comp w
  ⟨Q, Nat.le_trans h1 hk, h2⟩

theorem Asks.bind {β γ : Type} {k l : Nat} {f : (α → α → Bool) → M β} {g : (α → α → Bool) → β → M γ} (hf : Asks k f)
    (hg : ∀ a, Asks l (fun c => g c a)) : Asks (k + l) (fun c => f c >>= g c) := by
  intro comp w
  obtain ⟨Q, h1, h2⟩ := hf comp w
  cases hr : f comp w with
  | ok a w' =>
    obtain ⟨R, h3, h4⟩ := hg a comp w'
    refine ⟨Q ++ R, by rw [List.length_append]; omega, fun comp' hq => ?_⟩
    have e := h2 comp' (fun q hqq => hq q (List.mem_append_left _ hqq))
    show (f comp' >>= g comp') w = (f comp >>= g comp) w
    rw [M.bind_apply, M.bind_apply, e, hr]
    exact h4 comp' (fun q hqq => hq q (List.mem_append_right _ hqq))
  | oom w' =>
    refine ⟨Q, by omega, fun comp' hq => ?_⟩
    show (f comp' >>= g comp') w = (f comp >>= g comp) w
    rw [M.bind_apply, M.bind_apply, h2 comp' hq, hr]
  | ub =>
    refine ⟨Q, by omega, fun comp' hq => ?_⟩
    show (f comp' >>= g comp') w = (f comp >>= g comp) w
    rw [M.bind_apply, M.bind_apply, h2 comp' hq, hr]

/-- after something that does not ask -/
theorem Asks.after {β γ : Type} {l : Nat} {f : M β} {g : (α → α → Bool) → β → M γ} (hg : ∀ a, Asks l (fun c => g c a)) :
    Asks l (fun c => f >>= g c) := by
  have := Asks.bind (α := α) (k := 0) (f := fun _ => f) Asks.const hg
  rwa [Nat.zero_add] at this

/-- one question -/
theorem Asks.ask {β : Type} {k : Nat} (a b : α) {f : Bool → (α → α → Bool) → M β} (h : ∀ t, Asks k (f t)) :
    Asks (k + 1) (fun c => f (c a b) c) := by
  intro comp w
  obtain ⟨Q, h1, h2⟩ := h (comp a b) comp w
  refine ⟨(a, b) :: Q, by rw [List.length_cons]; omega, fun comp' hq => ?_⟩
  have e := hq (a, b) (List.mem_cons_self ..)
  simp only at e
  show f (comp' a b) comp' w = f (comp a b) comp w
  rw [e]
  exact h2 comp' (fun q hqq => hq q (List.mem_cons_of_mem _ hqq))

theorem asks_upLoop (E : Elt α) (beg : Nat) (value : α) (k index : Nat) (o : Objs α) (hk : index + 1 < 2 ^ (k + 1)) :
    Asks k (fun c => BHeap.upLoop E c beg value index o) := by
  induction k generalizing index o with
  | zero =>
    have : index = 0 := by simp at hk; omega
    subst this
    have e : (fun c => BHeap.upLoop E c beg value 0 o) = fun _ => pure (0, o) := by
      funext c
      rw [BHeap.upLoop]
      simp
    rw [e]
    exact Asks.const
  | succ k ih =>
    by_cases h0 : index = 0
    · subst h0
      have e : (fun c => BHeap.upLoop E c beg value 0 o) = fun _ => pure (0, o) := by
        funext c
        rw [BHeap.upLoop]
        simp
      rw [e]
      exact Asks.const.mono (Nat.zero_le _)
    · have e : (fun c => BHeap.upLoop E c beg value index o) = fun c => (do
          let pv ← E.read o (beg + (index - 1) / 2 * E.size)
          (fun t => if t = true then do
            let r ← E.moveOut o (beg + (index - 1) / 2 * E.size)
            let o' ← E.assign r.2 (beg + index * E.size) r.1
            BHeap.upLoop E c beg value ((index - 1) / 2) o'
          else pure (index, o)) (c value pv)) := by
        funext c
        conv => lhs; rw [BHeap.upLoop]
        rw [dif_pos h0]
      rw [e]
      refine Asks.after fun pv => ?_
      refine Asks.ask value pv (f := fun t c => if t = true then do
            let r ← E.moveOut o (beg + (index - 1) / 2 * E.size)
            let o' ← E.assign r.2 (beg + index * E.size) r.1
            BHeap.upLoop E c beg value ((index - 1) / 2) o'
          else pure (index, o)) (fun t => ?_)
      cases t with
      | true =>
        refine Asks.after fun r => Asks.after fun o' => ih _ _ ?_
        rw [Nat.pow_succ] at hk
        omega
      | false => exact Asks.const.mono (Nat.zero_le _)

theorem asks_better (E : Elt α) (beg size : Nat) (o : Objs α) (c child : Nat) :
    Asks 1 (fun comp => BHeap.better E comp beg size o c child) := by
  unfold BHeap.better
  by_cases h : c < size
  · simp only [h, if_true]
    refine Asks.after fun x => Asks.after fun y => ?_
    exact Asks.ask x y (f := fun t _ => pure (if t = true then c else child)) (fun t => Asks.const)
  · simp only [h, if_false]
    exact Asks.const.mono (Nat.zero_le _)

theorem asks_better_none (E : Elt α) (beg size : Nat) (o : Objs α) (c child : Nat) (h : size ≤ c) :
    (fun comp => BHeap.better E comp beg size o c child) = fun _ => pure child := by
  funext comp
  unfold BHeap.better
  rw [if_neg (by omega)]

/-- the result of `better` is one of the two candidates -/
theorem better_mem {E : Elt α} {comp : α → α → Bool} {beg size : Nat} {o : Objs α} {c child : Nat} {w w' : World} {r : Nat}
    (h : BHeap.better E comp beg size o c child w = .ok r w') : r = c ∨ r = child := by
  unfold BHeap.better at h
  split at h
  · obtain ⟨x, w1, _, h⟩ := bind_ok h
    obtain ⟨y, w2, _, h⟩ := bind_ok h
    obtain ⟨rfl, rfl⟩ := pure_ok h
    split
    · exact .inl rfl
    · exact .inr rfl
  · obtain ⟨rfl, rfl⟩ := pure_ok h
    exact .inr rfl

/-- as `Asks.bind`, knowing more about the result of the first part -/
theorem Asks.bind' {β γ : Type} {k l : Nat} {f : (α → α → Bool) → M β} {g : (α → α → Bool) → β → M γ} (P : β → Prop) (hf : Asks k f)
    (hP : ∀ c w a w', f c w = .ok a w' → P a) (hg : ∀ a, P a → Asks l (fun c => g c a)) : Asks (k + l) (fun c => f c >>= g c) := by
  intro comp w
  obtain ⟨Q, h1, h2⟩ := hf comp w
  cases hr : f comp w with
  | ok a w' =>
    obtain ⟨R, h3, h4⟩ := hg a (hP _ _ _ _ hr) comp w'
    refine ⟨Q ++ R, by rw [List.length_append]; omega, fun comp' hq => ?_⟩
    have e := h2 comp' (fun q hqq => hq q (List.mem_append_left _ hqq))
    show (f comp' >>= g comp') w = (f comp >>= g comp) w
    rw [M.bind_apply, M.bind_apply, e, hr]
    exact h4 comp' (fun q hqq => hq q (List.mem_append_right _ hqq))
  | oom w' =>
    refine ⟨Q, by omega, fun comp' hq => ?_⟩
    show (f comp' >>= g comp') w = (f comp >>= g comp) w
    rw [M.bind_apply, M.bind_apply, h2 comp' hq, hr]
  | ub =>
    refine ⟨Q, by omega, fun comp' hq => ?_⟩
    show (f comp' >>= g comp') w = (f comp >>= g comp) w
    rw [M.bind_apply, M.bind_apply, h2 comp' hq, hr]

theorem asks_downLoop (E : Elt α) (beg size : Nat) (k fuel parent : Nat) (o : Objs α) (hk : size < (parent + 1) * 2 ^ (k + 1)) :
    Asks (2 * k) (fun c => BHeap.downLoop E c beg size fuel parent o) := by
  induction fuel generalizing k parent o with
  | zero => exact Asks.const.mono (Nat.zero_le _)
  | succ fuel ih =>
    simp only [BHeap.downLoop]
    by_cases hp : parent < size
    · simp only [hp, if_true]
      cases k with
      | zero =>
        simp only [Nat.zero_add, Nat.pow_one] at hk
        have e1 : ∀ c, BHeap.better E c beg size o (parent * 2 + 1) parent = pure parent := fun c =>
          congrFun (asks_better_none E beg size o (parent * 2 + 1) parent (by omega)) c
        have e2 : ∀ c, BHeap.better E c beg size o (parent * 2 + 2) parent = pure parent := fun c =>
          congrFun (asks_better_none E beg size o (parent * 2 + 2) parent (by omega)) c
        simp only [e1, e2, pure_bind, if_true]
        exact Asks.const
      | succ k =>
        rw [show 2 * (k + 1) = 1 + (1 + 2 * k) by omega]
        refine Asks.bind' (fun c => c = parent * 2 + 1 ∨ c = parent) (asks_better _ _ _ _ _ _) (fun _ _ _ _ h => better_mem h) fun c hc => ?_
        refine Asks.bind' (fun d => d = parent * 2 + 2 ∨ d = c) (asks_better _ _ _ _ _ _) (fun _ _ _ _ h => better_mem h) fun d hd => ?_
        by_cases he : d = parent
        · simp only [he, if_true]
          exact Asks.const.mono (Nat.zero_le _)
        · simp only [he, if_false]
          refine Asks.after fun t => Asks.after fun p => Asks.after fun o1 => Asks.after fun o2 => ih _ _ _ ?_
          have hd' : (parent + 1) * 2 ≤ d + 1 := by rcases hd with h | h <;> rcases hc with h' | h' <;> omega
          have := Nat.mul_le_mul_right (2 ^ (k + 1)) hd'
          rw [Nat.pow_succ, Nat.mul_comm (2 ^ (k + 1)) 2, ← Nat.mul_assoc] at hk
          omega
    · simp only [hp, if_false]
      exact Asks.const.mono (Nat.zero_le _)

/-- **C69, insert.** What `insert` does on a heap of `n` elements is determined by at most `⌊log₂(n + 1)⌋` comparisons, whatever the
allocator, the element type, the comparator (it need not be an order) and the contents of memory. -/
theorem C69_insert_logarithmic (E : Elt α) (A : Allocator) (s : A.St) (o : Objs α) (h : BHeap) (x : HArg α) :
    Asks (Nat.log2 (h.size + 1)) (fun comp => h.insert E comp A s o x) := by
  unfold BHeap.insert
  have main : ∀ r : A.St × Objs α × BHeap, r.2.2.size = h.size → Asks (Nat.log2 (h.size + 1)) (fun comp => (do
      let v ← x.fetch E r.2.1
      let o1 ← E.construct r.2.1 (r.2.2.beg + r.2.2.size * E.size) v
      let u ← BHeap.percolateUp E comp r.2.2.beg r.2.2.size o1
      pure (r.2.2.beg + u.1 * E.size, r.1, u.2, { r.2.2 with size := r.2.2.size + 1 }) : M (Nat × A.St × Objs α × BHeap))) := by
    intro r hr
    refine Asks.after fun v => Asks.after fun o1 => ?_
    have hu : Asks (Nat.log2 (h.size + 1)) (fun comp => BHeap.percolateUp E comp r.2.2.beg r.2.2.size o1) := by
      unfold BHeap.percolateUp
      refine Asks.after fun value => ?_
      have := (asks_upLoop E r.2.2.beg value (Nat.log2 (h.size + 1)) r.2.2.size o1 (by rw [hr]; exact Nat.lt_log2_self)).bind
        (l := 0) (g := fun _ r' => (do
          let o' ← E.assign r'.2 (r.2.2.beg + r'.1 * E.size) value
          pure (r'.1, o') : M (Nat × Objs α))) (fun _ => Asks.const)
      exact this
    exact hu.bind (l := 0) (g := fun _ u => (pure (r.2.2.beg + u.1 * E.size, r.1, u.2, { r.2.2 with size := r.2.2.size + 1 }) :
      M (Nat × A.St × Objs α × BHeap))) (fun _ => Asks.const)
  by_cases hc : h.size = h.cap
  · simp only [hc, if_true]
    have := Asks.bind' (α := α) (k := 0) (f := fun _ => h.expand E A s o 1) (fun r => r.2.2.size = h.size) Asks.const
      (fun _ w r w' hr => by
        have := (BHeap.setSize_shape hr).1
        rw [this, Nat.min_eq_left (by omega)]) main
    rw [Nat.zero_add, hc] at this
    exact this
  · simp only [hc, if_false]
    exact main (s, o, h) rfl

/-- **C69, pop.** What `pop` does on a heap of `n` elements is determined by at most `2 · ⌊log₂(n - 1)⌋` comparisons. -/
theorem C69_pop_logarithmic (E : Elt α) (o : Objs α) (h : BHeap) :
    Asks (2 * Nat.log2 (h.size - 1)) (fun comp => h.pop E comp o) := by
  unfold BHeap.pop
  refine Asks.after fun root => Asks.after fun o1 => Asks.after fun o2 => ?_
  have hd : Asks (2 * Nat.log2 (h.size - 1)) (fun comp => BHeap.percolateDown E comp h.beg (h.size - 1) 0 o2) := by
    unfold BHeap.percolateDown
    refine Asks.after fun value => ?_
    exact (asks_downLoop E h.beg (h.size - 1) (Nat.log2 (h.size - 1)) (h.size - 1 + 1) 0 o2
      (by rw [Nat.zero_add, Nat.one_mul]; exact Nat.lt_log2_self)).bind (l := 0)
      (g := fun _ r => E.assign r.2 (h.beg + r.1 * E.size) value) (fun _ => Asks.const)
  exact hd.bind (l := 0) (g := fun _ o3 => (pure (root, o3, { h with size := h.size - 1 }) : M (α × Objs α × BHeap))) (fun _ => Asks.const)

/-- `Asks` says something: one question is needed to insert into a heap with one element -/
example : ¬ Asks 0 (fun comp => do
    let r ← BHeap.ofList demoByte demoLess (mallocator (demoSys .direct)) () (fun _ => none) [5]
    r.2.2.insert demoByte comp (mallocator (demoSys .direct)) r.1 r.2.1 (.val 3)) := by
  intro h
  obtain ⟨Q, h1, h2⟩ := h demoLess (demoWorld 0)
  have hQ : Q = [] := List.length_eq_zero_iff.1 (Nat.le_zero.1 h1)
  subst hQ
  have e := congrArg (fun r => r.test fun x _ => decide (x.1 = x.2.2.2.beg)) (h2 (fun _ _ => false) (by simp))
  exact absurd e (by decide +kernel)

end KTL
