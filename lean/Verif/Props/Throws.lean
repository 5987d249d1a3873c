import Verif.Containers.BinaryHeapThrows
import Verif.Props.BinaryHeap

/- C89: what is left of a program with `binary_heap`s after copying an element has thrown. -/
namespace KTL
variable {α : Type}

/-! ### Specification -/

/-- The program without the operations that end with an exception. -/
def unthrown (ops : List (XOp α)) : List (BOp α) := ops.filterMap fun o => match o with
  | .plain op => some op
  | _ => none

/-- How many elements a program asks for. -/
def xweights : List (XOp α) → Nat
  | [] => 0
  | .plain op :: os => op.weight + xweights os
  | .copyThrows _ _ :: os => xweights os
  | .newListThrows vs _ :: os => vs.length + xweights os

/-- The number of operations that end with an exception. -/
def throws (ops : List (XOp α)) : Nat := ops.length - (unthrown ops).length

/-- As `HSane`. -/
def XSane (t : AllocTy) (E : Elt α) (ops : List (XOp α)) : Prop :=
  E.size * (2 * xweights ops) + t.margin < 2 ^ 64 ∧ ((∃ o ∈ unthrown ops, o.mayBeEmpty = true) → t.noRouting = true)

/-! ### Proof: the remains of a heap are a heap that the program does not know -/

/-- the same operation when there are `n` more heaps in front -/
def BOp.shift (n : Nat) : BOp α → BOp α
  | .new => .new
  | .newCap m => .newCap m
  | .newList vs => .newList vs
  | .copy j => .copy (n + j)
  | .move j => .move (n + j)
  | .copyAssign i j => .copyAssign (n + i) (n + j)
  | .moveAssign i j => .moveAssign (n + i) (n + j)
  | .destroy i => .destroy (n + i)
  | .reserve i m => .reserve (n + i) m
  | .insert i v => .insert (n + i) v
  | .insertFrom i j k => .insertFrom (n + i) (n + j) k
  | .pop i => .pop (n + i)
  | .peek i => .peek (n + i)
  | .find i v => .find (n + i) v
  | .clear i => .clear (n + i)

theorem get_pre {β : Type} (pre l : List β) (i : Nat) : (pre ++ l)[pre.length + i]? = l[i]? := by
  rw [List.getElem?_append_right (by omega), Nat.add_sub_cancel_left]

theorem set_pre {β : Type} (pre l : List β) (i : Nat) (x : β) : (pre ++ l).set (pre.length + i) x = pre ++ l.set i x := by
  rw [List.set_append_right _ _ (by omega), Nat.add_sub_cancel_left]

theorem erase_pre {β : Type} (pre l : List β) (i : Nat) : (pre ++ l).eraseIdx (pre.length + i) = pre ++ l.eraseIdx i := by
  rw [List.eraseIdx_append_of_length_le (by omega), Nat.add_sub_cancel_left]

/-- with the remains `pre` in front -/
def BHeaps.under {A : Allocator} (pre : List BHeap) (c : BHeaps A α) : BHeaps A α := { c with hs := pre ++ c.hs }

theorem bstep_shift (E : Elt α) (comp eq : α → α → Bool) {A : Allocator} (pre : List BHeap) (c : BHeaps A α) (op : BOp α) :
    (c.under pre).step E comp eq (op.shift pre.length) = (c.step E comp eq op >>= fun c' => pure (c'.under pre)) := by
  cases op with
  | new => simp only [BOp.shift, BHeaps.step, BHeaps.under, List.append_assoc, pure_bind]
  | newCap n => simp only [BOp.shift, BHeaps.step, BHeaps.under, List.append_assoc, bind_assoc, pure_bind]
  | newList vs => simp only [BOp.shift, BHeaps.step, BHeaps.under, List.append_assoc, bind_assoc, pure_bind]
  | copy j =>
    simp only [BOp.shift, BHeaps.step, BHeaps.under, get_pre]
    cases c.hs[j]? <;> simp only [List.append_assoc, bind_assoc, pure_bind]
  | move j =>
    simp only [BOp.shift, BHeaps.step, BHeaps.under, get_pre, set_pre]
    cases c.hs[j]? <;> simp only [List.append_assoc, pure_bind]
  | copyAssign i j =>
    simp only [BOp.shift, BHeaps.step, Nat.add_left_cancel_iff]
    by_cases hij : i = j
    · simp only [hij, if_true, pure_bind]
    · simp only [hij, if_false, BHeaps.copyAssign, BHeaps.under, get_pre, set_pre]
      cases c.hs[i]? <;> cases c.hs[j]? <;> simp only [bind_assoc, pure_bind]
  | moveAssign i j =>
    simp only [BOp.shift, BHeaps.step, BHeaps.moveAssign, BHeaps.under, get_pre, set_pre]
    cases c.hs[i]? <;> cases c.hs[j]? <;> simp only [bind_assoc, pure_bind]
  | destroy i =>
    simp only [BOp.shift, BHeaps.step, BHeaps.under, get_pre, erase_pre]
    cases c.hs[i]? <;> simp only [bind_assoc, pure_bind]
  | reserve i n =>
    simp only [BOp.shift, BHeaps.step, BHeaps.under, get_pre, set_pre]
    cases c.hs[i]? <;> simp only [bind_assoc, pure_bind]
  | insert i v =>
    simp only [BOp.shift, BHeaps.step, BHeaps.under, get_pre, set_pre]
    cases c.hs[i]? <;> simp only [bind_assoc, pure_bind]
  | insertFrom i j k =>
    simp only [BOp.shift, BHeaps.step, BHeaps.under, get_pre, set_pre, ne_eq, Nat.add_left_cancel_iff]
    cases c.hs[i]? <;> cases c.hs[j]? <;> simp only [pure_bind]
    split <;> simp only [bind_assoc, pure_bind]
  | pop i =>
    simp only [BOp.shift, BHeaps.step, BHeaps.under, get_pre, set_pre]
    cases c.hs[i]? <;> simp only [pure_bind]
    split <;> simp only [bind_assoc, pure_bind]
  | peek i =>
    simp only [BOp.shift, BHeaps.step, BHeaps.under, get_pre]
    cases c.hs[i]? <;> simp only [pure_bind]
    split <;> simp only [bind_assoc, pure_bind]
  | find i v =>
    simp only [BOp.shift, BHeaps.step, BHeaps.under, get_pre]
    cases c.hs[i]? <;> simp only [bind_assoc, pure_bind]
  | clear i =>
    simp only [BOp.shift, BHeaps.step, BHeaps.under, get_pre, set_pre]
    cases c.hs[i]? <;> simp only [bind_assoc, pure_bind]

/-- with the remains `pre` in front -/
def Bags.under (pre : List (List α)) (S : Bags α) : Bags α := { S with xs := pre ++ S.xs }

theorem bags_shift {comp eq : α → α → Bool} {pre : List (List α)} {S : Bags α} {op : BOp α} {S' : Bags α}
    (h : (S.under pre).Step comp eq (op.shift pre.length) S') : ∃ T, S.Step comp eq op T ∧ S' = T.under pre := by
  cases op with
  | new => exact ⟨_, rfl, by rw [show S' = _ from h]; simp [Bags.under]⟩
  | newCap n => exact ⟨_, rfl, by rw [show S' = _ from h]; simp [Bags.under]⟩
  | newList vs =>
    obtain ⟨ys, h1, h2⟩ := h
    exact ⟨_, ⟨ys, h1, rfl⟩, by rw [h2]; simp [Bags.under]⟩
  | copy j =>
    simp only [BOp.shift, Bags.Step, Bags.under, get_pre] at h ⊢
    cases hj : S.xs[j]? with
    | none => rw [hj] at h; exact ⟨S, rfl, h⟩
    | some ys => rw [hj] at h; exact ⟨_, rfl, by rw [show S' = _ from h]; simp⟩
  | move j =>
    simp only [BOp.shift, Bags.Step, Bags.under, get_pre, set_pre] at h ⊢
    cases hj : S.xs[j]? with
    | none => rw [hj] at h; exact ⟨S, rfl, h⟩
    | some ys => rw [hj] at h; exact ⟨_, rfl, by rw [show S' = _ from h]; simp⟩
  | copyAssign i j =>
    simp only [BOp.shift, Bags.Step, Bags.under, get_pre, set_pre, Nat.add_left_cancel_iff] at h ⊢
    cases hi : S.xs[i]? with
    | none => rw [hi] at h; exact ⟨S, rfl, h⟩
    | some zs =>
      cases hj : S.xs[j]? with
      | none => rw [hi, hj] at h; exact ⟨S, rfl, h⟩
      | some ys =>
        rw [hi, hj] at h
        refine ⟨_, rfl, ?_⟩
        rw [show S' = _ from h]
        split <;> rfl
  | moveAssign i j =>
    simp only [BOp.shift, Bags.Step, Bags.under, get_pre, set_pre] at h ⊢
    cases hi : S.xs[i]? with
    | none => rw [hi] at h; exact ⟨S, rfl, h⟩
    | some zs =>
      cases hj : S.xs[j]? with
      | none => rw [hi, hj] at h; exact ⟨S, rfl, h⟩
      | some ys => rw [hi, hj] at h; exact ⟨_, rfl, h⟩
  | destroy i =>
    simp only [BOp.shift, Bags.Step, Bags.under, erase_pre] at h ⊢
    exact ⟨_, rfl, h⟩
  | reserve i n => exact ⟨S, rfl, h⟩
  | insert i v =>
    simp only [BOp.shift, Bags.Step, Bags.under, get_pre, set_pre] at h ⊢
    cases hi : S.xs[i]? with
    | none => rw [hi] at h; exact ⟨S, rfl, h⟩
    | some ys =>
      rw [hi] at h
      obtain ⟨zs, h1, h2⟩ := h
      exact ⟨_, ⟨zs, h1, rfl⟩, h2⟩
  | insertFrom i j k =>
    simp only [BOp.shift, Bags.Step, Bags.under, get_pre, set_pre, Nat.add_left_cancel_iff] at h ⊢
    cases hi : S.xs[i]? with
    | none => rw [hi] at h; exact ⟨S, rfl, h⟩
    | some ys =>
      cases hj : S.xs[j]? with
      | none => rw [hi, hj] at h; exact ⟨S, rfl, h⟩
      | some us =>
        rw [hi, hj] at h
        dsimp only at h ⊢
        cases hk : us[k]? with
        | none => rw [hk] at h; exact ⟨S, rfl, h⟩
        | some v =>
          rw [hk] at h
          dsimp only at h ⊢
          by_cases hij : i = j
          · simp only [hij, if_true] at h ⊢; exact ⟨S, rfl, h⟩
          · simp only [hij, if_false] at h ⊢
            obtain ⟨zs, h1, h2⟩ := h
            exact ⟨_, ⟨zs, h1, rfl⟩, h2⟩
  | pop i =>
    simp only [BOp.shift, Bags.Step, Bags.under, get_pre, set_pre] at h ⊢
    rcases hi : S.xs[i]? with _ | _ | ⟨v, ys⟩
    · rw [hi] at h; exact ⟨S, rfl, h⟩
    · rw [hi] at h; exact ⟨S, rfl, h⟩
    · rw [hi] at h
      obtain ⟨h0, zs, h1, h2⟩ := h
      exact ⟨_, ⟨h0, zs, h1, rfl⟩, h2⟩
  | peek i =>
    simp only [BOp.shift, Bags.Step, Bags.under, get_pre] at h ⊢
    rcases hi : S.xs[i]? with _ | _ | ⟨v, ys⟩
    · rw [hi] at h; exact ⟨S, rfl, h⟩
    · rw [hi] at h; exact ⟨S, rfl, h⟩
    · rw [hi] at h
      exact ⟨_, ⟨h.1, rfl⟩, h.2⟩
  | find i v =>
    simp only [BOp.shift, Bags.Step, Bags.under, get_pre] at h ⊢
    cases hi : S.xs[i]? with
    | none => rw [hi] at h; exact ⟨S, rfl, h⟩
    | some ys => rw [hi] at h; exact ⟨_, rfl, h⟩
  | clear i =>
    simp only [BOp.shift, Bags.Step, Bags.under, set_pre] at h ⊢
    exact ⟨_, rfl, h⟩

theorem sizes_shift (op : BOp α) (pre ns : List Nat) : (op.shift pre.length).sizes (pre ++ ns) = pre ++ op.sizes ns := by
  cases op <;> simp only [BOp.shift, BOp.sizes, get_pre, set_pre, erase_pre, List.append_assoc, ne_eq, Nat.add_left_cancel_iff]
  case copy j => cases ns[j]? <;> simp
  case move j => cases ns[j]? <;> simp
  case copyAssign i j => cases ns[i]? <;> cases ns[j]? <;> simp only; split <;> rfl
  case moveAssign i j => cases ns[i]? <;> cases ns[j]? <;> simp only
  case insert i v => cases ns[i]? <;> simp only
  case insertFrom i j k => cases ns[i]? <;> cases ns[j]? <;> simp only; split <;> rfl
  case pop i => cases ns[i]? <;> simp only

theorem popsLast_shift (op : BOp α) (pre ns : List Nat) : popsLast (pre ++ ns) [op.shift pre.length] = popsLast ns [op] := by
  cases op <;> simp only [BOp.shift, popsLast, get_pre]

theorem weight_shift (op : BOp α) (n : Nat) : (op.shift n).weight = op.weight := by cases op <;> rfl
theorem mayBeEmpty_shift (op : BOp α) (n : Nat) : (op.shift n).mayBeEmpty = op.mayBeEmpty := by
  cases op <;> first | rfl | (simp only [BOp.shift])

theorem Triple.of_map {β γ : Type} {P : HProp} {c : M β} {f : β → γ} {Q : γ → HProp} (h : Triple P (c >>= fun a => (Pure.pure (f a) : M γ)) Q) :
    Triple P c (fun a => Q (f a)) := by
  intro w h0 hf hd he hp
  have := h w h0 hf hd he hp
  rw [M.bind_apply] at this
  cases hc : c w with
  | ok a w' => rw [hc] at this; exact this
  | oom w' => rw [hc] at this; exact this
  | ub => rw [hc] at this; exact this

/-- a beginning of a heap is a heap -/
theorem HeapOrd.take {comp : α → α → Bool} {xs : List α} (h : HeapOrd comp xs) (k : Nat) : HeapOrd comp (xs.take k) := by
  have sub : ∀ (i : Nat) (x : α), (xs.take k)[i]? = some x → xs[i]? = some x := by
    intro i x hx
    rw [List.getElem?_take] at hx
    split at hx
    · exact hx
    · cases hx
  intro j hj x y h1 h2
  exact h j hj x y (sub _ _ h1) (sub _ _ h2)

section
variable {E : Elt α} {o : Objs α} {Γ : List (Nat × Slots α)} {comp : α → α → Bool}
variable {A : Allocator} {fA : Nat → Prop} {hA : Sound A fA} {b : Nat} {s : A.St}

theorem BHeap.copyThrows_spec (hE : E.Ok) {g : HGhost α} (hg : g.Ok) (k : Nat) (hk : k < g.xs.length) (hf : fA (E.size * g.xs.length))
    (hn : E.size * g.xs.length < W64) :
    Triple (TPool hA b E s o (g.own ++ Γ)) (g.h.copyThrows E A s o k) (fun r x => ∃ g' : HGhost α, g'.Ok ∧ g'.xs = g.xs.take k ∧
      g'.h.cap = g.xs.length ∧ TPool hA b E r.1 r.2 (g'.own ++ (g.own ++ Γ)) x) := by
  unfold BHeap.copyThrows
  rw [hg.size]
  have h0 := hg.pos (by omega : 0 < g.xs.length)
  refine Triple.bind (triple_tgrab hE g.xs.length hf hn) (fun r => ?_)
  refine Triple.or (Triple.and fun _ => Triple.and fun h2 => absurd h2 (by omega)) (Triple.and fun h1 => ?_)
  have hsl : live g.xs ++ g.rest = live ([] ++ g.xs.take k) ++ (live (g.xs.drop k) ++ g.rest) := by
    rw [List.nil_append, ← List.append_assoc, ← live_append, List.take_append_drop]
  have hlen : (g.xs.take k).length = k := by rw [List.length_take]; omega
  have key := BHeap.copyAll_spec (P := Pool hA b r.2) (o := o) (Γ := Γ) hE (dst := r.1) (src := g.h.beg) (g.xs.take k) [] []
    (List.replicate g.xs.length none) (live (g.xs.drop k) ++ g.rest) rfl (by rw [hlen, List.length_replicate]; omega) (NoneAlive.replicate _)
  rw [hlen, ← hsl] at key
  rw [HGhost.own_pos h0]
  refine Triple.bind key (fun o' => ?_)
  have hget : (live g.xs ++ g.rest)[k]? = some (some ⟨g.xs[k], true⟩) := live_get (List.getElem?_eq_getElem hk)
  have hread : Triple (TPool hA b E r.2 o' ((r.1, live ([] ++ g.xs.take k) ++ (List.replicate g.xs.length none).drop k) :: (g.h.beg, live g.xs ++ g.rest) :: Γ))
      (E.read o' (g.h.beg + k * E.size))
      (fun _ => TPool hA b E r.2 o' ((r.1, live ([] ++ g.xs.take k) ++ (List.replicate g.xs.length none).drop k) :: (g.h.beg, live g.xs ++ g.rest) :: Γ)) := by
    rw [TPool.perm (List.Perm.swap _ _ _)]
    exact (triple_read hE hget rfl).post (fun _ _ h => h.2)
  refine Triple.bind hread (fun _ => Triple.pure _ (fun x hp => ?_))
  refine ⟨⟨⟨k, g.xs.length, r.1⟩, g.xs.take k, (List.replicate g.xs.length none).drop k⟩, ⟨hlen.symm, ?_, fun h => absurd h h1, (NoneAlive.replicate _).drop k⟩, rfl, rfl, ?_⟩
  · show g.xs.length = _ + _
    rw [hlen, List.length_drop, List.length_replicate]; omega
  · rw [HGhost.own_mk h1]; exact hp

theorem BHeap.ofListThrows_spec (hE : E.Ok) (vs : List α) (k : Nat) (hf : fA (E.size * vs.length)) (hn : E.size * vs.length < W64) :
    Triple (TPool hA b E s o Γ) (BHeap.ofListThrows E comp A s o vs k) (fun r z => ∃ g : HGhost α, g.Ok ∧ g.xs.Perm (vs.take k) ∧
      (StrictWeak comp → HeapOrd comp g.xs) ∧ g.h.cap = vs.length ∧ TPool hA b E r.1 r.2 (g.own ++ Γ) z) := by
  refine Triple.bind (BHeap.ofCap_spec hE vs.length hf hn) (fun r => ?_)
  refine Triple.exists fun g => Triple.and fun h1 => Triple.and fun h2 => Triple.and fun h3 => Triple.and fun h4 => ?_
  rw [← h1] at h4 ⊢
  refine Triple.bind (BHeap.insertAll_spec hE (comp := comp) (vs.take k) h2 (by rw [h4]; exact hn)
    (by rw [h3, h4]; have : (vs.take k).length ≤ vs.length := List.length_take_le' k vs; simp only [List.length_nil]; omega)) (fun r' => ?_)
  refine Triple.exists fun g' => Triple.and fun k1 => Triple.and fun k2 => Triple.and fun k3 => Triple.and fun k4 => Triple.and fun k5 => Triple.pure _ (fun z hp => ?_)
  rw [h3, List.append_nil] at k3
  exact ⟨g', k2, k3, fun hs => k4 hs (by rw [h3]; exact HeapOrd.nil), by rw [k1, k5, h4], hp⟩
end

/-- the heaps of the program, with the remains of interrupted constructions -/
def XInv {A : Allocator} {fA : Nat → Prop} (hA : Sound A fA) (b : Nat) (E : Elt α) (comp : α → α → Bool) (T : Nat) (n : Nat) (ns : List Nat)
    (c : BHeaps A α) (S : Bags α) : HProp := fun x =>
  ∃ Δ : List (HGhost α), Δ.length ≤ n ∧ HInv hA b E comp T (Δ.map (fun g => g.xs.length) ++ ns) (c.under (Δ.map HGhost.h)) (S.under (Δ.map HGhost.xs)) x

theorem XInv.lose {A : Allocator} {fA : Nat → Prop} {hA : Sound A fA} {b T T' n : Nat} {E : Elt α} {comp : α → α → Bool} {ns : List Nat} {c c' : BHeaps A α}
    {S : Bags α} {x : Heap} {Δ Γ : List (HGhost α)} (hΔ : Δ.length ≤ n) (hv : (c.under (Δ.map HGhost.h)).hs = Γ.map HGhost.h)
    (hx : (S.under (Δ.map HGhost.xs)).xs = Γ.map HGhost.xs) (hn : Δ.map (fun g => g.xs.length) ++ ns = Γ.map (fun g => g.xs.length)) (hs : c.seen = S.seen)
    (hok : ∀ g ∈ Γ, g.Fine comp T) (hT : T ≤ T') {g : HGhost α} (hg : g.Fine comp T') (hc : c'.hs = c.hs) (hc' : c'.seen = c.seen)
    (hp : TPool hA b E c'.st c'.objs (g.own ++ Γ.flatMap HGhost.own) x) : XInv hA b E comp T' (n + 1) ns c' S x := by
  refine ⟨g :: Δ, by simp; omega, g :: Γ, ?_, ?_, ?_, ?_, ?_, hp⟩
  · show (g.h :: Δ.map HGhost.h) ++ c'.hs = g.h :: Γ.map HGhost.h
    rw [← hv, hc]; rfl
  · show (g.xs :: Δ.map HGhost.xs) ++ S.xs = g.xs :: Γ.map HGhost.xs
    rw [← hx]; rfl
  · show (g.xs.length :: Δ.map (fun g => g.xs.length)) ++ ns = g.xs.length :: Γ.map (fun g => g.xs.length)
    rw [← hn]; rfl
  · show c'.seen = S.seen
    rw [hc', hs]
  · intro g1 h1
    rcases List.mem_cons.1 h1 with rfl | h1
    · exact hg
    · exact (hok g1 h1).mono hT

/-- how many elements an operation asks for -/
def XOp.weight : XOp α → Nat
  | .plain op => op.weight
  | .copyThrows _ _ => 0
  | .newListThrows vs _ => vs.length

theorem xstep_plain {A : Allocator} {fA : Nat → Prop} (hA : Sound A fA) (b T N n : Nat) {E : Elt α} (hE : E.Ok) (comp eq : α → α → Bool) (ns : List Nat)
    (c : BHeaps A α) (S : Bags α) (op : BOp α) (hfit : ∀ n, 0 < n → n ≤ 2 * N → E.size * n < W64 ∧ fA (E.size * n))
    (h0 : op.mayBeEmpty = true → fA 0) (hN : T + op.weight ≤ N) (hpop : E.trivial = true ∨ popsLast ns [op] = false) :
    Triple (XInv hA b E comp T n ns c S) (c.step E comp eq op)
      (fun c' x => ∃ S', S.Step comp eq op S' ∧ XInv hA b E comp (T + op.weight) n (op.sizes ns) c' S' x) := by
  refine Triple.exists fun Δ => Triple.and fun hΔ => ?_
  have l1 : (Δ.map HGhost.h).length = Δ.length := List.length_map _
  have l2 : (Δ.map HGhost.xs).length = Δ.length := List.length_map _
  have l3 : (Δ.map fun g => g.xs.length).length = Δ.length := List.length_map _
  have key := hstep hA b T N hE comp eq (Δ.map (fun g => g.xs.length) ++ ns) (c.under (Δ.map HGhost.h)) (S.under (Δ.map HGhost.xs)) (op.shift Δ.length) hfit
    (by rw [mayBeEmpty_shift]; exact h0) (by rw [weight_shift]; exact hN) (hpop.imp id fun h => by
      have := popsLast_shift op (Δ.map fun g => g.xs.length) ns
      rw [l3] at this
      rw [this]; exact h)
  have e1 := bstep_shift E comp eq (Δ.map HGhost.h) c op
  rw [l1] at e1
  rw [e1, weight_shift] at key
  have e3 := sizes_shift op (Δ.map fun g => g.xs.length) ns
  rw [l3] at e3
  rw [e3] at key
  refine key.of_map.post (fun c' x hx => ?_)
  obtain ⟨S', h1, h2⟩ := hx
  obtain ⟨S'', h3, rfl⟩ := bags_shift (pre := Δ.map HGhost.xs) (by rw [l2]; exact h1)
  exact ⟨S'', h3, Δ, hΔ, h2⟩

theorem xstep_spec {A : Allocator} {fA : Nat → Prop} (hA : Sound A fA) (b T N n : Nat) {E : Elt α} (hE : E.Ok) (comp eq : α → α → Bool) (ns : List Nat)
    (c : BHeaps A α) (S : Bags α) (op : XOp α) (hop : ∀ p, op ≠ .plain p) (hfit : ∀ n, 0 < n → n ≤ 2 * N → E.size * n < W64 ∧ fA (E.size * n))
    (hN : T + op.weight ≤ N) :
    Triple (XInv hA b E comp T n ns c S) (c.xstep E comp eq op) (fun c' x => XInv hA b E comp (T + op.weight) (n + 1) ns c' S x) := by
  refine Triple.exists fun Δ => Triple.and fun hΔ => ?_
  refine Triple.exists fun Γ => Triple.and fun hv => Triple.and fun hx => Triple.and fun hn => Triple.and fun hs => Triple.and fun hok => ?_
  have skip : Triple (TPool hA b E (c.under (Δ.map HGhost.h)).st (c.under (Δ.map HGhost.h)).objs (Γ.flatMap HGhost.own)) (Pure.pure c : M (BHeaps A α))
      (fun c' x => XInv hA b E comp (T + op.weight) (n + 1) ns c' S x) :=
    Triple.pure _ (fun x hp => ⟨Δ, by omega, Γ, hv, hx, hn, hs, fun g hg => (hok g hg).mono (by omega), hp⟩)
  cases op with
  | plain p => exact absurd rfl (hop p)
  | copyThrows j k =>
    cases hj : c.hs[j]? with
    | none => simp only [BHeaps.xstep, hj]; exact skip
    | some h =>
      simp only [BHeaps.xstep, hj]
      by_cases hk : k < h.size
      · rw [if_pos hk]
        have hj' : (c.under (Δ.map HGhost.h)).hs[Δ.length + j]? = some h := by
          have := get_pre (Δ.map HGhost.h) c.hs j
          rw [List.length_map] at this
          rw [← hj, ← this]; rfl
        rcases HInv.get hv hx hn (Δ.length + j) with ⟨_, h2, _⟩ | ⟨g, h1, h1', h2, h3, h4⟩
        · rw [h2] at hj'; cases hj'
        · rw [h2] at hj'
          obtain rfl := Option.some.inj hj'
          have hg := hok g h1'
          have hle := hg.size_le
          have hk' : k < g.xs.length := by rw [← hg.ok.size]; exact hk
          have hfit' := hfit g.xs.length (by omega) (by have : T ≤ N := by simp only [XOp.weight] at hN; omega
                                                        omega)
          rw [TPool.perm (hown_perm h1)]
          refine Triple.bind (BHeap.copyThrows_spec hE hg.ok k hk' hfit'.2 hfit'.1) (fun r => ?_)
          refine Triple.exists fun g' => Triple.and fun k1 => Triple.and fun k2 => Triple.and fun k3 => Triple.pure _ (fun x hp => ?_)
          rw [TPool.perm ((hown_perm h1).symm.append_left _)] at hp
          exact XInv.lose hΔ hv hx hn hs hok (Nat.le_add_right _ _) ⟨k1, by rw [k3]; omega, by
            rw [k2, List.length_take]; omega, fun hw => by rw [k2]; exact (hg.ord hw).take k⟩ (c' := { c with st := r.1, objs := r.2 }) rfl rfl hp
      · rw [if_neg hk]; exact skip
  | newListThrows vs k =>
    simp only [BHeaps.xstep]
    by_cases hk : k < vs.length
    · rw [if_pos hk]
      simp only [XOp.weight] at hN
      have hfit' := hfit vs.length (by omega) (by omega)
      refine Triple.bind (BHeap.ofListThrows_spec hE (comp := comp) vs k hfit'.2 hfit'.1) (fun r => ?_)
      refine Triple.exists fun g' => Triple.and fun k1 => Triple.and fun k2 => Triple.and fun k3 => Triple.and fun k4 => Triple.pure _ (fun x hp => ?_)
      exact XInv.lose hΔ hv hx hn hs hok (Nat.le_add_right _ _) ⟨k1, by rw [k4]; simp only [XOp.weight]; omega, by
        rw [k2.length_eq, List.length_take]; simp only [XOp.weight]; omega, k3⟩ (c' := { c with st := r.1, objs := r.2 }) rfl rfl hp
    · rw [if_neg hk]; exact skip

theorem unthrown_length (ops : List (XOp α)) : (unthrown ops).length ≤ ops.length := List.length_filterMap_le _ _

theorem XInv.mono {A : Allocator} {fA : Nat → Prop} {hA : Sound A fA} {b T T' n n' : Nat} {E : Elt α} {comp : α → α → Bool} {ns : List Nat} {c : BHeaps A α}
    {S : Bags α} {x : Heap} (h : XInv hA b E comp T n ns c S x) (hT : T ≤ T') (hn : n ≤ n') : XInv hA b E comp T' n' ns c S x := by
  obtain ⟨Δ, hΔ, Γ, h1, h2, h3, h4, h5, h6⟩ := h
  exact ⟨Δ, by omega, Γ, h1, h2, h3, h4, fun g hg => (h5 g hg).mono hT, h6⟩

theorem xrun_spec {A : Allocator} {fA : Nat → Prop} (hA : Sound A fA) (b N : Nat) {E : Elt α} (hE : E.Ok) (comp eq : α → α → Bool)
    (hfit : ∀ n, 0 < n → n ≤ 2 * N → E.size * n < W64 ∧ fA (E.size * n)) (ops : List (XOp α)) (h0 : (∃ o ∈ unthrown ops, o.mayBeEmpty = true) → fA 0)
    (T n : Nat) (ns : List Nat) (hpop : E.trivial = true ∨ popsLast ns (unthrown ops) = false) (c : BHeaps A α) (S : Bags α) (hN : T + xweights ops ≤ N) :
    Triple (XInv hA b E comp T n ns c S) (c.xrun E comp eq ops)
      (fun c' x => ∃ S', Bags.Run comp eq S (unthrown ops) S' ∧ ∃ ns', XInv hA b E comp N (n + throws ops) ns' c' S' x) := by
  induction ops generalizing T n c S ns with
  | nil =>
    exact Triple.pure _ (fun x hp => ⟨S, .nil S, ns, hp.mono (by simp [xweights] at hN; omega) (by omega)⟩)
  | cons o os ih =>
    have other : (∀ p, o ≠ .plain p) → unthrown (o :: os) = unthrown os → xweights (o :: os) = o.weight + xweights os →
        Triple (XInv hA b E comp T n ns c S) (c.xrun E comp eq (o :: os))
          (fun c' x => ∃ S', Bags.Run comp eq S (unthrown (o :: os)) S' ∧ ∃ ns', XInv hA b E comp N (n + throws (o :: os)) ns' c' S' x) := by
      intro hp hu hw
      rw [hw] at hN
      rw [hu] at h0 hpop ⊢
      refine Triple.bind (xstep_spec hA b T N n hE comp eq ns c S o hp hfit (by omega)) (fun c' => ?_)
      have e : n + 1 + throws os = n + throws (o :: os) := by
        have := unthrown_length os
        unfold throws
        rw [hu]; simp only [List.length_cons]; omega
      rw [← e]
      exact ih h0 (T + o.weight) (n + 1) ns hpop c' S (by omega)
    cases o with
    | plain p =>
      have hu : unthrown (.plain p :: os) = p :: unthrown os := rfl
      rw [hu] at h0 hpop ⊢
      simp only [xweights] at hN
      refine Triple.bind (xstep_plain hA b T N n hE comp eq ns c S p hfit (fun h => h0 ⟨p, by simp, h⟩) (by omega) (hpop.imp id fun h => (popsLast_cons h).1)) (fun c' => ?_)
      refine Triple.exists fun S' => Triple.and fun hstep => ?_
      refine (ih (fun ⟨o', ho, h⟩ => h0 ⟨o', by simp [ho], h⟩) (T + p.weight) n (p.sizes ns) (hpop.imp id fun h => (popsLast_cons h).2) c' S' (by omega)).post (fun c'' x hx => ?_)
      obtain ⟨S'', h1, ns', h2⟩ := hx
      have e : throws (.plain p :: os) = throws os := by
        unfold throws
        rw [hu]; simp only [List.length_cons]; omega
      exact ⟨S'', .cons hstep h1, ns', by rw [e]; exact h2⟩
    | copyThrows j k => exact other (fun p h => by cases h) rfl (by simp [xweights, XOp.weight])
    | newListThrows vs k => exact other (fun p h => by cases h) rfl rfl

theorem xplay_spec {A : Allocator} {fA : Nat → Prop} (hA : Sound A fA) (b : Nat) {E : Elt α} (hE : E.Ok) (comp eq : α → α → Bool) (ops : List (XOp α))
    (hfit : ∀ n, 0 < n → n ≤ 2 * xweights ops → E.size * n < W64 ∧ fA (E.size * n)) (h0 : (∃ o ∈ unthrown ops, o.mayBeEmpty = true) → fA 0)
    (hpop : E.trivial = true ∨ popsLast [] (unthrown ops) = false) (h1 : b ≠ 0) (h2 : b % 16 = 0) (h3 : b + A.objSize < W64) :
    Triple (bytes b A.objSize) (xplay E comp eq A b ops)
      (fun c x => ∃ S, Bags.Run comp eq ⟨[], []⟩ (unthrown ops) S ∧ ∃ ns, XInv hA b E comp (xweights ops) (throws ops) ns c S x) := by
  refine Triple.bind (hA.init_spec b h1 h2 h3) (fun s => ?_)
  refine ((xrun_spec hA b _ hE comp eq hfit ops h0 0 0 [] hpop _ ⟨[], []⟩ (by omega)).pre (fun x hx => ?_)).post (fun c x hx => ?_)
  · exact ⟨[], by simp, [], rfl, rfl, rfl, rfl, fun g hg => by simp at hg, tpool_start hx⟩
  · rw [Nat.zero_add] at hx; exact hx

theorem HInv.parts {A : Allocator} {fA : Nat → Prop} {hA : Sound A fA} {b T : Nat} {E : Elt α} {comp : α → α → Bool} {ns : List Nat} {c : BHeaps A α}
    {S : Bags α} {x : Heap} {Δ : List (HGhost α)}
    (h : HInv hA b E comp T (Δ.map (fun g => g.xs.length) ++ ns) (c.under (Δ.map HGhost.h)) (S.under (Δ.map HGhost.xs)) x) :
    ∃ Γ1 Γ2 : List (HGhost α), Γ1.map HGhost.h = Δ.map HGhost.h ∧ Γ1.map HGhost.xs = Δ.map HGhost.xs ∧ c.hs = Γ2.map HGhost.h ∧ S.xs = Γ2.map HGhost.xs ∧
      (∀ g ∈ Γ1 ++ Γ2, g.Fine comp T) ∧ TPool hA b E c.st c.objs (Γ1.flatMap HGhost.own ++ Γ2.flatMap HGhost.own) x := by
  obtain ⟨Γ, hv, hx, _, _, hok, hp⟩ := h
  have e : Γ = Γ.take Δ.length ++ Γ.drop Δ.length := (List.take_append_drop _ _).symm
  have hv' : Δ.map HGhost.h ++ c.hs = Γ.map HGhost.h := hv
  have hx' : Δ.map HGhost.xs ++ S.xs = Γ.map HGhost.xs := hx
  have hl : (Γ.take Δ.length).length = Δ.length := by
    have := congrArg List.length hv'
    simp only [List.length_append, List.length_map] at this
    rw [List.length_take]; omega
  rw [e, List.map_append] at hv' hx'
  obtain ⟨a1, a2⟩ := List.append_inj hv' (by simp only [List.length_map, hl])
  obtain ⟨b1, b2⟩ := List.append_inj hx' (by simp only [List.length_map, hl])
  rw [e] at hok
  have hp' : TPool hA b E c.st c.objs (Γ.flatMap HGhost.own) x := hp
  rw [e, List.flatMap_append] at hp'
  exact ⟨_, _, a1.symm, b1.symm, a2, b2, hok, hp'⟩

theorem xclose_spec {A : Allocator} {fA : Nat → Prop} (hA : Sound A fA) (b : Nat) {E : Elt α} (hE : E.Ok) (comp eq : α → α → Bool) (ops : List (XOp α))
    (hfit : ∀ n, 0 < n → n ≤ 2 * xweights ops → E.size * n < W64 ∧ fA (E.size * n)) (h0 : (∃ o ∈ unthrown ops, o.mayBeEmpty = true) → fA 0)
    (hpop : E.trivial = true ∨ popsLast [] (unthrown ops) = false) (h1 : b ≠ 0) (h2 : b % 16 = 0) (h3 : b + A.objSize < W64) :
    Triple (bytes b A.objSize) (xclose E comp eq A b ops) (fun r x => ∃ Δ : List (HGhost α), Δ.length ≤ throws ops ∧
      (∀ g ∈ Δ, g.Fine comp (xweights ops)) ∧ TPool hA b E r.1 r.2 (Δ.flatMap HGhost.own) x) := by
  refine Triple.bind (xplay_spec hA b hE comp eq ops hfit h0 hpop h1 h2 h3) (fun c => ?_)
  refine Triple.exists fun S => Triple.and fun _ => Triple.exists fun ns => Triple.exists fun Δ => Triple.and fun hΔ => ?_
  have hW : ∀ n, n ≤ 2 * xweights ops → E.size * n < W64 := fun n hn => by
    by_cases h : n = 0
    · subst h; rw [Nat.mul_zero]; decide
    · exact (hfit n (by omega) hn).1
  refine Triple.pre ?_ (P := fun x => ∃ Γ1 Γ2 : List (HGhost α), Γ1.length ≤ throws ops ∧ c.hs = Γ2.map HGhost.h ∧ (∀ g ∈ Γ1 ++ Γ2, g.Fine comp (xweights ops)) ∧
    TPool hA b E c.st c.objs (Γ1.flatMap HGhost.own ++ Γ2.flatMap HGhost.own) x) (fun x hx => ?_)
  · refine Triple.exists fun Γ1 => Triple.exists fun Γ2 => Triple.and fun hl => Triple.and fun hv => Triple.and fun hok => ?_
    rw [hv, TPool.perm List.perm_append_comm]
    exact (hdestroyAll_spec hA b _ hE hW Γ2 (fun g hg => hok g (by simp [hg])) c.st c.objs _).post
      (fun r x hp => ⟨Γ1, hl, fun g hg => hok g (by simp [hg]), hp⟩)
  · obtain ⟨Γ1, Γ2, e1, _, e3, _, hok, hp⟩ := HInv.parts hx
    have := congrArg List.length e1
    simp only [List.length_map] at this
    exact ⟨Γ1, Γ2, by omega, e3, hok, hp⟩

/-- what is alive in an array is one of its elements -/
theorem live_inv {xs : List α} {rest : Slots α} (hr : NoneAlive rest) {k : Nat} {v : α} (h : (live xs ++ rest)[k]? = some (some ⟨v, true⟩)) : xs[k]? = some v := by
  by_cases hk : k < xs.length
  · rw [List.getElem?_append_left (by rw [live_length]; exact hk)] at h
    unfold live at h
    rw [List.getElem?_map, List.getElem?_eq_getElem hk] at h
    rw [List.getElem?_eq_getElem hk]
    simp only [Option.map_some, Option.some.injEq, Obj.mk.injEq, and_true] at h
    rw [h]
  · rw [List.getElem?_append_right (by rw [live_length]; omega)] at h
    have := hr _ (List.mem_of_getElem? h)
    simp at this

theorem XSane.fits {t : AllocTy} {E : Elt α} {ops : List (XOp α)} (h : XSane t E ops) (hwf : t.WF) (hE : E.Ok) (plat : Plat) :
    (∀ n, 0 < n → n ≤ 2 * xweights ops → E.size * n < W64 ∧ t.fits plat (E.size * n)) ∧ ((∃ o ∈ unthrown ops, o.mayBeEmpty = true) → t.fits plat 0) := by
  have h1 := h.1
  refine ⟨fun n hn hle => ?_, fun he => ?_⟩
  · have hm : E.size * n ≤ E.size * (2 * xweights ops) := Nat.mul_le_mul_left _ hle
    have hp : 0 < E.size * n := Nat.mul_pos hE.pos hn
    exact ⟨by omega, t.fits_of_margin plat hwf _ hp (by omega)⟩
  · exact t.fits_zero plat hwf (h.2 he) 0 (by omega)

/-! ### C89 -/

/-- C89: a program constructs, uses and destroys `binary_heap`s, over any composition of the allocators; some of its constructors, from a list
or from another heap, end with an exception because copying an element throws, and the program goes on. Then all heaps it has are as if these
constructors had never been called: what it sees, the number of heaps, and the elements each of them holds are those of the multisets of the
program without them (`unthrown`).
Missing: the exception out of the copy assignment, after which the heap assigned to is unusable (`C89_assign_false`,
`C89_assign_alloc_false`); what the interrupted constructors leave behind is lost (`C89_copy_false`, `C89_list_false`, `C89_lost_partial`);
popping the last element of a heap of a non-trivial type (`C56_false`). -/
theorem C89_survivors_partial (sys : Sys) (t : AllocTy) (hwf : t.WF) (b : Nat) (w : World) (hs : Storage w b t.size)
    (E : Elt α) (hE : E.Ok) (comp eq : α → α → Bool) (ops : List (XOp α)) (hops : XSane t E ops)
    (hpop : E.trivial = true ∨ popsLast [] (unthrown ops) = false) :
    match xplay E comp eq (t.denote sys) b ops w with
    | .ok c w' => ∃ S, Bags.Run comp eq ⟨[], []⟩ (unthrown ops) S ∧ c.seen = S.seen ∧ c.hs.length = S.xs.length ∧
        ∀ (i : Nat) (h : BHeap) (xs : List α), c.hs[i]? = some h → S.xs[i]? = some xs →
          h.size = xs.length ∧ h.size ≤ h.cap ∧ Holds E c.objs w' h.beg xs
    | .oom w' => w'.failed = true
    | .ub => False := by
  obtain ⟨h0, hf, hd, he, hb, hfb, hft⟩ := storage_split hs
  have hfit := hops.fits hwf hE sys.plat
  have hsz := t.objSize_eq sys
  have := xplay_spec (t.sound sys hwf) b hE comp eq ops hfit.1 hfit.2 hpop hs.1 hs.2.1 (by rw [hsz]; exact hs.2.2.1) w h0 hf hd he (by rw [hsz]; exact hb)
  cases hr : xplay E comp eq (t.denote sys) b ops w with
  | oom w' => rw [hr] at this; exact this
  | ub => rw [hr] at this; exact this
  | ok c w' =>
    rw [hr] at this
    obtain ⟨⟨h', hd', he', S, hrun, ns, Δ, hΔ, hI⟩, hna⟩ := this
    obtain ⟨f1, f2, f3⟩ := hI.final hE he'
    have f2' : (Δ.map HGhost.h ++ c.hs).length = (Δ.map HGhost.xs ++ S.xs).length := f2
    simp only [List.length_append, List.length_map] at f2'
    refine ⟨S, hrun, f1, by omega, fun i h xs hi hx => ?_⟩
    have g1 := get_pre (Δ.map HGhost.h) c.hs i
    have g2 := get_pre (Δ.map HGhost.xs) S.xs i
    rw [List.length_map] at g1 g2
    obtain ⟨k1, k2, k3, _⟩ := f3 (Δ.length + i) h xs (g1.trans hi) (g2.trans hx)
    exact ⟨k1, k2, k3⟩

/-- C89: such a program can destroy its heaps in the end, and all that is then left alive are elements that the interrupted constructors had
copied: no more than one array of them for each exception. -/
theorem C89_lost_partial (sys : Sys) (t : AllocTy) (hwf : t.WF) (b : Nat) (w : World) (hs : Storage w b t.size)
    (E : Elt α) (hE : E.Ok) (comp eq : α → α → Bool) (ops : List (XOp α)) (hops : XSane t E ops)
    (hpop : E.trivial = true ∨ popsLast [] (unthrown ops) = false) :
    match xclose E comp eq (t.denote sys) b ops w with
    | .ok r w' => ∃ lost : List (Nat × List α), lost.length ≤ throws ops ∧ (∀ a ∈ lost, Holds E r.2 w' a.1 a.2) ∧
        ∀ p v, r.2 p = some ⟨v, true⟩ → ∃ a ∈ lost, ∃ k, a.2[k]? = some v ∧ p = a.1 + k * E.size
    | .oom w' => w'.failed = true
    | .ub => False := by
  obtain ⟨h0, hf, hd, he, hb, hfb, hft⟩ := storage_split hs
  have hfit := hops.fits hwf hE sys.plat
  have hsz := t.objSize_eq sys
  have := xclose_spec (t.sound sys hwf) b hE comp eq ops hfit.1 hfit.2 hpop hs.1 hs.2.1 (by rw [hsz]; exact hs.2.2.1) w h0 hf hd he (by rw [hsz]; exact hb)
  cases hr : xclose E comp eq (t.denote sys) b ops w with
  | oom w' => rw [hr] at this; exact this
  | ub => rw [hr] at this; exact this
  | ok r w' =>
    rw [hr] at this
    obtain ⟨⟨h', hd', he', Δ, hΔ, hok, hp⟩, hna⟩ := this
    refine ⟨Δ.map fun g => (g.h.beg, g.xs), by simpa using hΔ, fun a ha => ?_, fun p v hv => ?_⟩
    · obtain ⟨g, hg, rfl⟩ := List.mem_map.1 ha
      by_cases hb : g.h.beg = 0
      · intro k x hk
        have hk' : g.xs[k]? = some x := hk
        rw [((hok g hg).ok.nil hb).1] at hk'; simp at hk'
      · exact TPool.holds hE hp he' (rest := g.rest) (List.mem_flatMap.2 ⟨g, hg, by rw [HGhost.own_pos hb]; simp⟩)
    · obtain ⟨R, _, _, hk, _⟩ := hp
      obtain ⟨q, sl, k, h1, h2, h3⟩ := (hk p _).1 hv
      obtain ⟨g, hg, h4⟩ := List.mem_flatMap.1 h1
      by_cases hb : g.h.beg = 0
      · rw [show g.own = [] from if_pos hb] at h4; cases h4
      · rw [HGhost.own_pos hb, List.mem_singleton] at h4
        obtain ⟨rfl, rfl⟩ := Prod.mk.inj h4
        exact ⟨_, List.mem_map.2 ⟨g, hg, rfl⟩, k, live_inv (hok g hg).ok.dead h2, h3⟩

/-- C89 is false for the copy constructor: copying the second element throws; in the end, all heaps destroyed, the first copy is alive, and
its storage is allocated. -/
theorem C89_copy_false : ((xclose demoElt demoLess (fun a b => a == b) (mallocator (demoSys .direct)) 4096 [.plain (.newList [5, 3, 9]), .copyThrows 0 1] (demoWorld 0)).test
    fun r w => decide (r.2 0x110000 = some ⟨3, true⟩ ∧ w.heap.b 0x110000 = some 3 ∧ w.heap.t 0x110000 = some 6)) = true := by decide +kernel

/-- The same for the constructor from a list. -/
theorem C89_list_false : ((xclose demoElt demoLess (fun a b => a == b) (mallocator (demoSys .direct)) 4096 [.newListThrows [5, 3, 9] 1] (demoWorld 0)).test
    fun r w => decide (r.2 0x100000 = some ⟨5, true⟩ ∧ w.heap.b 0x100000 = some 5 ∧ w.heap.t 0x100000 = some 6)) = true := by decide +kernel

/-- C89 is false for the copy assignment: copying the second element throws, and destroying the heap assigned to destroys an element that
was never constructed. -/
theorem C89_assign_false : ((do
    let c ← xplay demoElt demoLess (fun a b => a == b) (mallocator (demoSys .direct)) 4096 [.plain (.newList [5, 3, 9]), .plain (.newList [7, 8])]
    let c' ← c.copyAssignThrows demoElt 0 1 1
    BHeaps.destroyAll demoElt c'.st c'.objs c'.hs : M _) (demoWorld 0)).isUB = true := by decide +kernel

/-- C89 is false for the copy assignment when the allocator throws: the heap assigned to keeps a pointer to the storage it has given back, and
destroying it uses that storage. -/
theorem C89_assign_alloc_false : ((do
    let c ← xplay demoElt demoLess (fun a b => a == b) (mallocator (demoSys .direct)) 4096 [.plain (.newList [5, 3, 9]), .plain (.newList [7, 8])]
    let c' ← c.copyAssignRefused demoElt 0 1
    BHeaps.destroyAll demoElt c'.st c'.objs c'.hs : M _) (demoWorld 0)).isUB = true := by decide +kernel

/-- both programs come to the exception without undefined behaviour -/
example : ((do
    let c ← xplay demoElt demoLess (fun a b => a == b) (mallocator (demoSys .direct)) 4096 [.plain (.newList [5, 3, 9]), .plain (.newList [7, 8])]
    let c' ← c.copyAssignThrows demoElt 0 1 1
    pure (c'.hs.map BHeap.size) : M _) (demoWorld 0)).test (fun r _ => decide (r = [2, 2])) = true := by decide +kernel
example : ((do
    let c ← xplay demoElt demoLess (fun a b => a == b) (mallocator (demoSys .direct)) 4096 [.plain (.newList [5, 3, 9]), .plain (.newList [7, 8])]
    let c' ← c.copyAssignRefused demoElt 0 1
    pure (c'.hs.map BHeap.size) : M _) (demoWorld 0)).test (fun r _ => decide (r = [2, 2])) = true := by decide +kernel

/-! ### Concrete cases meet the hypotheses -/

/-- a program with two exceptions -/
def demoThrowOps : List (XOp UInt8) :=
  [.plain (.newList [5, 3, 9, 1]), .copyThrows 0 2, .plain .new, .newListThrows [4, 2, 8] 2, .plain (.insert 1 7), .plain (.pop 0), .copyThrows 0 0, .plain (.peek 0)]

example : XSane demoTy demoElt demoThrowOps := by
  refine ⟨by decide, ?_⟩
  rintro ⟨o, ho, h⟩
  revert h
  simp only [demoThrowOps, unthrown, List.filterMap_cons, List.filterMap_nil, List.mem_cons, List.not_mem_nil, or_false] at ho
  rcases ho with rfl | rfl | rfl | rfl | rfl <;> decide
example : popsLast [] (unthrown demoThrowOps) = false := by decide
example : throws demoThrowOps = 3 := by decide
/-- over malloc, with copies -/
example : XSane .mallocator demoByte [.plain (.newList [5, 3]), .copyThrows 0 1, .plain (.copy 0), .plain (.pop 0), .plain (.pop 0)] := ⟨by decide, fun _ => rfl⟩

/-- the program runs -/
example : ((xplay demoElt demoLess (fun a b => a == b) (mallocator (demoSys .direct)) 4096 demoThrowOps (demoWorld 0)).test fun c _ =>
    decide (c.seen = [.elem 7, .elem 1, .elem 3] ∧ c.hs.map BHeap.size = [3, 1])) = true := by decide +kernel

end KTL
