import Verif.Util.Builder
import Verif.Props.Bits
import Verif.Alloc.Ty

/- C37–C39: the type builders. -/
namespace KTL

/-! ### Splitting -/

theorem pick_map {α} (ts : List α) (is : List Nat) (l : List α) (hl : l.length = is.length)
    (h : ∀ j (hj : j < is.length), ts[is[j]]? = some (l[j]'(by omega))) : pick ts is = some l := by
  induction is generalizing l with
  | nil => cases l with
    | nil => rfl
    | cons _ _ => simp at hl
  | cons i is ih =>
    cases l with
    | nil => simp at hl
    | cons a l =>
      have h0 := h 0 (by simp)
      simp only [List.getElem_cons_zero] at h0
      have h1 := ih l (by simpa using hl) (fun j hj => by
        have := h (j + 1) (by simp; exact hj)
        simpa using this)
      simp only [pick, h0, h1]

/-- the two halves of a split with `O` elements left out in between -/
theorem tupleSplit_eq {α} (O n m : Nat) (ts : List α) (h : n + O + m = ts.length) :
    tupleSplit O n m ts = some (ts.take n, ts.drop (n + O)) := by
  have h1 : pick ts (List.range n) = some (ts.take n) := by
    refine pick_map _ _ _ (by simp; omega) ?_
    · intro j hj
      simp only [List.length_range] at hj
      simp only [List.getElem_range, List.getElem_take]
      exact List.getElem?_eq_getElem (by omega)
  have h2 : pick ts ((List.range m).map (fun M => M + O + n)) = some (ts.drop (n + O)) := by
    refine pick_map _ _ _ (by simp; omega) ?_
    · intro j hj
      simp only [List.length_map, List.length_range] at hj
      simp only [List.getElem_map, List.getElem_range, List.getElem_drop]
      rw [show j + O + n = n + O + j by omega]
      exact List.getElem?_eq_getElem (by omega)
  simp only [tupleSplit, h1, h2]

/-- `pow2 k / 2` splits `k >= 2` elements into two non-empty parts, neither larger than `pow2 k / 2` -/
theorem pow2_half (k : Nat) (h2 : 2 ≤ k) (hk : k ≤ 2 ^ 63) :
    ∃ m, pow2 k = 2 ^ (m + 1) ∧ 2 ^ m < k ∧ k ≤ 2 ^ (m + 1) ∧ m < 63 := by
  obtain ⟨j, e1, e2, e3⟩ := C34_pow2_least k (by omega) hk
  cases j with
  | zero => simp at e2; omega
  | succ m =>
    refine ⟨m, e1, ?_, e2, ?_⟩
    · apply Classical.byContradiction
      intro hc
      have := e3 m (by omega)
      rw [Nat.pow_succ] at this
      have h0 : 0 < 2 ^ m := Nat.pow_pos (by decide)
      omega
    · have := e3 63 hk
      have := (Nat.pow_le_pow_iff_right (show 1 < 2 by decide)).1 this
      omega

/-! ### C37 -/

/-- Specification: the allocators of a tree in order. -/
def FTree.leaves {α} : FTree α → List α
  | .leaf a => [a]
  | .node l r => l.leaves ++ r.leaves

/-- Specification: nesting depth. -/
def FTree.depth {α} : FTree α → Nat
  | .leaf _ => 0
  | .node l r => max l.depth r.depth + 1

theorem fallbackBuild_spec {α} (R : Bool) (ts : List α) (fuel : Nat) (h0 : ts ≠ []) (hk : ts.length ≤ 2 ^ 63) (hf : ts.length ≤ fuel) :
    ∃ T, fallbackBuild R fuel ts = some T ∧ T.leaves = ts ∧ ∀ d, ts.length ≤ 2 ^ d → T.depth ≤ d := by
  induction fuel generalizing ts with
  | zero => cases ts <;> simp_all
  | succ fuel ih =>
    match ts, h0 with
    | [a], _ => exact ⟨.leaf a, rfl, rfl, fun d _ => Nat.zero_le d⟩
    | a :: b :: ts, _ =>
      generalize htt : a :: b :: ts = tt at *
      have hlen : 2 ≤ tt.length := by rw [← htt]; simp
      obtain ⟨m, e1, e2, e3, e4⟩ := pow2_half tt.length hlen hk
      have hm0 : 0 < 2 ^ m := Nat.pow_pos (by decide)
      have hps : (2:Nat) ^ (m + 1) = 2 * 2 ^ m := by rw [Nat.pow_succ, Nat.mul_comm]
      have hhalf : pow2 tt.length / 2 = 2 ^ m := by rw [e1, hps]; omega
      have hsub : subW tt.length (2 ^ m) = tt.length - 2 ^ m := by unfold subW; omega
      have main : ∀ n1 n2, n1 + n2 = tt.length → 0 < n1 → 0 < n2 → n1 ≤ 2 ^ m → n2 ≤ 2 ^ m →
          sizeInvert R (pow2 tt.length / 2) tt.length = (n1, n2) →
          ∃ T, fallbackBuild R (fuel + 1) tt = some T ∧ T.leaves = tt ∧ ∀ d, tt.length ≤ 2 ^ d → T.depth ≤ d := by
        intro n1 n2 hn hn1 hn2 h1 h2 hs
        obtain ⟨l, hl1, hl2, hl3⟩ := ih (tt.take n1) (List.ne_nil_of_length_pos (by simp; omega)) (by simp; omega) (by simp; omega)
        obtain ⟨r, hr1, hr2, hr3⟩ := ih (tt.drop n1) (List.ne_nil_of_length_pos (by simp; omega)) (by simp; omega) (by simp; omega)
        refine ⟨.node l r, ?_, ?_, ?_⟩
        · rw [← htt] at *
          simp only [fallbackBuild, hs, tupleSplit_eq 0 n1 n2 _ (by omega), Nat.add_zero, hl1, hr1]
        · simp only [FTree.leaves, hl2, hr2, List.take_append_drop]
        · intro d hd
          cases d with
          | zero => simp at hd; omega
          | succ d =>
            have hmd : m ≤ d := by
              apply Classical.byContradiction
              intro hc
              have := Nat.pow_le_pow_right (show 0 < 2 by decide) (show d + 1 ≤ m by omega)
              omega
            have hp := Nat.pow_le_pow_right (show 0 < 2 by decide) hmd
            have a1 := hl3 d (by simp; omega)
            have a2 := hr3 d (by simp; omega)
            simp only [FTree.depth]; omega
      cases R with
      | false =>
        exact main (2 ^ m) (tt.length - 2 ^ m) (by omega) hm0 (by omega) (Nat.le_refl _) (by omega)
          (by simp only [sizeInvert, hhalf, hsub]; rfl)
      | true =>
        exact main (tt.length - 2 ^ m) (2 ^ m) (by omega) (by omega) hm0 (by omega) (Nat.le_refl _)
          (by simp only [sizeInvert, hhalf, hsub]; rfl)

/-- **C37, order.** `fallback_builder_min/max<A1, ..., Ak>` compiles for every `k >= 1` and contains the
given allocators in the given order. -/
theorem C37_builder_keeps_order {α} (R : Bool) (ts : List α) (h0 : ts ≠ []) (hk : ts.length ≤ 2 ^ 63) :
    ∃ T, fallbackBuild R ts.length ts = some T ∧ T.leaves = ts := by
  obtain ⟨T, h1, h2, _⟩ := fallbackBuild_spec R ts ts.length h0 hk (Nat.le_refl _)
  exact ⟨T, h1, h2⟩

/-- **C39, `fallback_builder`.** The depth is at most `ceil(log2 k)`: at most `d` for every `d` with
`k <= 2^d`. -/
theorem C39_fallback_depth {α} (R : Bool) (ts : List α) (hk : ts.length ≤ 2 ^ 63) (T : FTree α)
    (hT : fallbackBuild R ts.length ts = some T) (d : Nat) (hd : ts.length ≤ 2 ^ d) : T.depth ≤ d := by
  by_cases h0 : ts = []
  · subst h0; cases hT
  · obtain ⟨T', h1, _, h3⟩ := fallbackBuild_spec R ts ts.length h0 hk (Nat.le_refl _)
    rw [h1] at hT; cases hT
    exact h3 d hd

/-! What "tries in order" means, for a list of allocators with their states. -/

/-- the states of a list of allocators -/
def HState : List Allocator → Type
  | [] => Unit
  | A :: l => A.St × HState l

/-- Specification: ask the allocators one after the other until one returns non-null. -/
def firstAlloc : (l : List Allocator) → HState l → Nat → M (Nat × HState l)
  | [], s, _ => pure (0, s)
  | A :: l, s, n => do
    let r ← A.alloc s.1 n
    if r.1 = 0 then do
      let t ← firstAlloc l s.2 n
      pure (t.1, (r.2, t.2))
    else pure (r.1, (r.2, s.2))

/-- Specification: is there an owner in the list? -/
def anyOwns : (l : List Allocator) → HState l → Nat → Bool
  | [], _, _ => false
  | A :: l, s, p => A.ownsD s.1 p || anyOwns l s.2 p

/-- Specification: give the block back to the first allocator that owns it, to the last one if there is no
owner. -/
def ownerDealloc : (l : List Allocator) → HState l → Nat → Nat → M (HState l)
  | [], s, _, _ => pure s
  | [A], s, p, n => do
    let r ← A.dealloc s.1 p n
    pure (r, s.2)
  | A :: B :: l, s, p, n =>
    if A.ownsD s.1 p then do
      let r ← A.dealloc s.1 p n
      pure (r, s.2)
    else do
      let t ← ownerDealloc (B :: l) s.2 p n
      pure (s.1, t)

def HState.app : {l1 l2 : List Allocator} → HState l1 → HState l2 → HState (l1 ++ l2)
  | [], _, _, b => b
  | _ :: _, _, a, b => (a.1, HState.app a.2 b)

/-- the states of the leaves, in order -/
def FTree.flat : (T : FTree Allocator) → T.denote.St → HState T.leaves
  | .leaf _, s => (s, ())
  | .node l r, s => HState.app (l.flat s.1) (r.flat s.2)

theorem firstAlloc_app (l1 l2 : List Allocator) (a : HState l1) (b : HState l2) (n : Nat) :
    firstAlloc (l1 ++ l2) (a.app b) n = (do
      let r ← firstAlloc l1 a n
      if r.1 = 0 then do
        let t ← firstAlloc l2 b n
        pure (t.1, r.2.app t.2)
      else pure (r.1, r.2.app b)) := by
  induction l1 with
  | nil =>
    simp only [firstAlloc, pure_bind, if_true]
    exact (bind_pure _).symm
  | cons A l ih =>
    show (do
      let r ← A.alloc a.1 n
      if r.1 = 0 then do
        let t ← firstAlloc (l ++ l2) (HState.app a.2 b) n
        pure (t.1, (r.2, t.2))
      else pure (r.1, (r.2, HState.app a.2 b)) : M (Nat × (A.St × HState (l ++ l2)))) = _
    simp only [firstAlloc, bind_assoc]
    congr 1; funext r
    by_cases hr : r.1 = 0
    · simp only [hr, if_true, bind_assoc, pure_bind, ih a.2]
      congr 1; funext t
      by_cases ht : t.1 = 0
      · simp only [ht, if_true, bind_assoc, pure_bind]; rfl
      · simp only [ht, if_false, pure_bind]; rfl
    · simp only [hr, if_false, pure_bind]; rfl

/-- **C37, serving order.** Allocation from a tree of `fallback`s asks its allocators in order and is
served by the first one that can serve it. -/
theorem C37_served_by_first (T : FTree Allocator) (s : T.denote.St) (n : Nat) :
    (do let r ← T.denote.alloc s n; pure (r.1, T.flat r.2)) = firstAlloc T.leaves (T.flat s) n := by
  induction T with
  | leaf A =>
    show (do let r ← A.alloc s n; pure (r.1, (r.2, ())) : M (Nat × (A.St × Unit))) = (do
      let r ← A.alloc s n
      if r.1 = 0 then do
        let t ← (pure (0, ()) : M (Nat × Unit))
        pure (t.1, (r.2, t.2))
      else pure (r.1, (r.2, ())))
    congr 1; funext r
    by_cases hr : r.1 = 0 <;> simp [hr]
  | node l r ihl ihr =>
    have e := firstAlloc_app l.leaves r.leaves (l.flat s.1) (r.flat s.2) n
    refine Eq.trans ?_ e.symm
    rw [← ihl s.1, ← ihr s.2]
    show (do
      let q ← (do
        let x ← l.denote.alloc s.1 n
        if x.1 = 0 then do
          let y ← r.denote.alloc s.2 n
          pure (y.1, (x.2, y.2))
        else pure (x.1, (x.2, s.2)) : M (Nat × (l.denote.St × r.denote.St)))
      pure (q.1, HState.app (l.flat q.2.1) (r.flat q.2.2)) : M (Nat × HState (l.leaves ++ r.leaves))) = _
    simp only [bind_assoc, pure_bind]
    congr 1; funext x
    by_cases hx : x.1 = 0
    · simp only [hx, if_true, bind_assoc, pure_bind]
    · simp only [hx, if_false, pure_bind]

theorem anyOwns_app (l1 l2 : List Allocator) (a : HState l1) (b : HState l2) (p : Nat) :
    anyOwns (l1 ++ l2) (a.app b) p = (anyOwns l1 a p || anyOwns l2 b p) := by
  induction l1 with
  | nil => rfl
  | cons A l ih =>
    show (A.ownsD a.1 p || anyOwns (l ++ l2) (HState.app a.2 b) p) = (A.ownsD a.1 p || anyOwns l a.2 p || anyOwns l2 b p)
    rw [ih, Bool.or_assoc]

theorem flat_owns (T : FTree Allocator) (h : ∀ A ∈ T.leaves, A.owns.isSome = true) :
    T.denote.owns.isSome = true ∧ ∀ s p, T.denote.ownsD s p = anyOwns T.leaves (T.flat s) p := by
  induction T with
  | leaf A => exact ⟨h A (by simp [FTree.leaves]), fun s p => (Bool.or_false _).symm⟩
  | node l r ihl ihr =>
    obtain ⟨l1, l2⟩ := ihl (fun A hA => h A (by simp [FTree.leaves, hA]))
    obtain ⟨r1, r2⟩ := ihr (fun A hA => h A (by simp [FTree.leaves, hA]))
    cases hl : l.denote.owns with
    | none => rw [hl] at l1; cases l1
    | some f =>
      cases hr : r.denote.owns with
      | none => rw [hr] at r1; cases r1
      | some g =>
        have e : (fallback l.denote r.denote).owns = some fun s p => f s.1 p || g s.2 p := by
          simp only [fallback, owns2, hl, hr]
        refine ⟨by simp only [FTree.denote, e, Option.isSome_some], fun s p => ?_⟩
        have e2 : (FTree.node l r).denote.ownsD s p = (f s.1 p || g s.2 p) := by
          show (fallback l.denote r.denote).ownsD s p = _
          unfold Allocator.ownsD
          rw [e]
        have e3 : l.denote.ownsD s.1 p = f s.1 p := by unfold Allocator.ownsD; rw [hl]
        have e4 : r.denote.ownsD s.2 p = g s.2 p := by unfold Allocator.ownsD; rw [hr]
        rw [e2, ← e3, ← e4, l2, r2]
        exact (anyOwns_app _ _ _ _ _).symm

theorem ownerDealloc_app (l1 l2 : List Allocator) (h1 : l1 ≠ []) (h2 : l2 ≠ []) (a : HState l1) (b : HState l2) (p n : Nat) :
    ownerDealloc (l1 ++ l2) (a.app b) p n =
      if anyOwns l1 a p then (do let t ← ownerDealloc l1 a p n; pure (t.app b))
      else (do let t ← ownerDealloc l2 b p n; pure (a.app t)) := by
  induction l1 with
  | nil => exact absurd rfl h1
  | cons A l ih =>
    match l, a with
    | [], a =>
      match l2, h2, b with
      | B :: l2, _, b =>
        show (if A.ownsD a.1 p then (do let r ← A.dealloc a.1 p n; pure (r, b))
          else (do let t ← ownerDealloc (B :: l2) b p n; pure (a.1, t)) : M (A.St × HState (B :: l2))) =
          if A.ownsD a.1 p || false then (do let t ← (do let r ← A.dealloc a.1 p n; pure (r, ()) : M (A.St × Unit)); pure (t.1, b))
          else (do let t ← ownerDealloc (B :: l2) b p n; pure (a.1, t))
        rw [Bool.or_false]
        simp only [bind_assoc, pure_bind]
    | C :: l, a =>
      have := ih (by simp) a.2
      show (if A.ownsD a.1 p then (do let r ← A.dealloc a.1 p n; pure (r, HState.app a.2 b))
          else (do let t ← ownerDealloc ((C :: l) ++ l2) (HState.app a.2 b) p n; pure (a.1, t)) : M (A.St × HState ((C :: l) ++ l2))) =
          if A.ownsD a.1 p || anyOwns (C :: l) a.2 p then
            (do let t ← (if A.ownsD a.1 p then (do let r ← A.dealloc a.1 p n; pure (r, a.2))
                else (do let t ← ownerDealloc (C :: l) a.2 p n; pure (a.1, t)) : M (A.St × HState (C :: l)))
                pure (t.1, HState.app t.2 b))
          else (do let t ← ownerDealloc l2 b p n; pure (a.1, HState.app a.2 t))
      rw [this]
      by_cases ho : A.ownsD a.1 p = true
      · simp only [ho, if_true, Bool.true_or, bind_assoc, pure_bind]
      · by_cases hl : anyOwns (C :: l) a.2 p = true
        · simp only [ho, hl, if_true, Bool.false_eq_true, if_false, Bool.or_true, bind_assoc, pure_bind]
        · simp only [ho, hl, Bool.false_eq_true, if_false, Bool.or_false, bind_assoc, pure_bind]

theorem leaves_ne_nil {α} (T : FTree α) : T.leaves ≠ [] := by
  induction T with
  | leaf a => simp [FTree.leaves]
  | node l r ihl ihr => simp [FTree.leaves, ihl]

/-- **C37, routing of frees.** Deallocation through a tree of `fallback`s (all of whose allocators but the
last have `owns`, as the library demands) reaches the first allocator in the list that owns the block. -/
theorem C37_freed_by_owner (T : FTree Allocator) (h : ∀ A ∈ T.leaves.dropLast, A.owns.isSome = true) (s : T.denote.St) (p n : Nat) :
    (do let r ← T.denote.dealloc s p n; pure (T.flat r)) = ownerDealloc T.leaves (T.flat s) p n := by
  induction T with
  | leaf A => rfl
  | node l r ihl ihr =>
    have hd : (l.leaves ++ r.leaves).dropLast = l.leaves ++ r.leaves.dropLast := by
      rw [List.dropLast_append_of_ne_nil (leaves_ne_nil r)]
    simp only [FTree.leaves, hd] at h
    have hl := fun A hA => h A (List.mem_append_left _ hA)
    have hr := fun A hA => h A (List.mem_append_right _ hA)
    have e := ownerDealloc_app l.leaves r.leaves (leaves_ne_nil l) (leaves_ne_nil r) (l.flat s.1) (r.flat s.2) p n
    refine Eq.trans ?_ e.symm
    rw [← ihl (fun A hA => hl A (List.dropLast_subset _ hA)) s.1, ← ihr hr s.2, ← (flat_owns l hl).2 s.1 p]
    show (do
      let q ← (if l.denote.ownsD s.1 p then (do let x ← l.denote.dealloc s.1 p n; pure (x, s.2))
        else (do let x ← r.denote.dealloc s.2 p n; pure (s.1, x)) : M (l.denote.St × r.denote.St))
      pure (HState.app (l.flat q.1) (r.flat q.2)) : M (HState (l.leaves ++ r.leaves))) = _
    by_cases ho : l.denote.ownsD s.1 p = true
    · simp only [ho, if_true, bind_assoc, pure_bind]
    · simp only [ho, Bool.false_eq_true, if_false, bind_assoc, pure_bind]

/-- the type expression of a tree -/
def FTree.ty : FTree AllocTy → AllocTy
  | .leaf a => a
  | .node l r => .fallback l.ty r.ty

/-- **C37.** The built type is well formed (so C01–C06 apply to it) if its parts are and all but the last
have `owns`. -/
theorem C37_builder_well_formed (T : FTree AllocTy) (h : ∀ A ∈ T.leaves, A.WF) (ho : ∀ A ∈ T.leaves.dropLast, A.hasOwns = true) : T.ty.WF := by
  have owns : ∀ T : FTree AllocTy, (∀ A ∈ T.leaves, A.hasOwns = true) → T.ty.hasOwns = true := by
    intro T
    induction T with
    | leaf a => intro h; exact h a (by simp [FTree.leaves])
    | node l r ihl ihr =>
      intro h
      simp only [FTree.ty, AllocTy.hasOwns, Bool.and_eq_true]
      exact ⟨ihl (fun A hA => h A (by simp [FTree.leaves, hA])), ihr (fun A hA => h A (by simp [FTree.leaves, hA]))⟩
  induction T with
  | leaf a => exact h a (by simp [FTree.leaves])
  | node l r ihl ihr =>
    have hd : (l.leaves ++ r.leaves).dropLast = l.leaves ++ r.leaves.dropLast := by
      rw [List.dropLast_append_of_ne_nil (leaves_ne_nil r)]
    simp only [FTree.leaves, hd] at ho
    have hl := fun A hA => ho A (List.mem_append_left _ hA)
    have hr := fun A hA => ho A (List.mem_append_right _ hA)
    exact ⟨ihl (fun A hA => h A (by simp [FTree.leaves, hA])) (fun A hA => hl A (List.dropLast_subset _ hA)),
      ihr (fun A hA => h A (by simp [FTree.leaves, hA])) hr, owns l hl⟩

example : fallbackBuild false 5 [1, 2, 3, 4, 5] =
    some (.node (.node (.node (.leaf 1) (.leaf 2)) (.node (.leaf 3) (.leaf 4))) (.leaf 5)) := by decide +kernel
example : fallbackBuild true 5 [1, 2, 3, 4, 5] =
    some (.node (.leaf 1) (.node (.node (.leaf 2) (.leaf 3)) (.node (.leaf 4) (.leaf 5)))) := by decide +kernel

/-! ### C38 -/

/-- the argument list `A0, t1, A1, ..., tr, Ar` of the builder -/
def interleave {α} (A : α) : List (Nat × α) → List (Item α)
  | [] => [.alloc A]
  | (t, B) :: rest => .alloc A :: .thr t :: interleave B rest

/-- Specification: the first `Ai` with `n <= t(i+1)`, the last one if there is none. -/
def bucket {α} (A : α) : List (Nat × α) → Nat → α
  | [], _ => A
  | (t, B) :: rest, n => if n ≤ t then A else bucket B rest n

/-- Specification: the leaf of a `segragator` tree a request of size `n` ends up in. -/
def STree.route {α} : STree α → Nat → α
  | .leaf a, _ => a
  | .node t l r, n => if n ≤ t then l.route n else r.route n

/-- Specification: allocators of a tree, from left to right. -/
def STree.leaves {α} : STree α → List α
  | .leaf a => [a]
  | .node _ l r => l.leaves ++ r.leaves

/-- Specification: thresholds of a tree, from left to right. -/
def STree.thresholds {α} : STree α → List Nat
  | .leaf _ => []
  | .node t l r => l.thresholds ++ t :: r.thresholds

def STree.depth {α} : STree α → Nat
  | .leaf _ => 0
  | .node _ l r => max l.depth r.depth + 1

theorem interleave_length {α} (A : α) (rest : List (Nat × α)) : (interleave A rest).length = 2 * rest.length + 1 := by
  induction rest generalizing A with
  | nil => rfl
  | cons x rest ih => simp only [interleave, List.length_cons, ih]; omega

theorem interleave_split {α} (A : α) (r1 : List (Nat × α)) (t : Nat) (B : α) (r2 : List (Nat × α)) :
    (interleave A (r1 ++ (t, B) :: r2)).take (2 * r1.length + 1) = interleave A r1 ∧
    (interleave A (r1 ++ (t, B) :: r2)).drop (2 * r1.length + 1 + 1) = interleave B r2 ∧
    (interleave A (r1 ++ (t, B) :: r2))[2 * r1.length + 1]? = some (.thr t) := by
  induction r1 generalizing A with
  | nil => exact ⟨rfl, rfl, rfl⟩
  | cons x r1 ih =>
    obtain ⟨h1, h2, h3⟩ := ih x.2
    have e : 2 * (x :: r1).length + 1 = 2 * r1.length + 1 + 1 + 1 := by simp; omega
    refine ⟨?_, ?_, ?_⟩
    · rw [e]; simp only [List.cons_append, interleave, List.take_succ_cons, h1]
    · rw [e]; simp only [List.cons_append, interleave, List.drop_succ_cons, h2]
    · rw [e]; simp only [List.cons_append, interleave, List.getElem?_cons_succ, h3]

theorem bucket_split {α} (A : α) (r1 : List (Nat × α)) (t : Nat) (B : α) (r2 : List (Nat × α)) (n : Nat)
    (h : ∀ x ∈ r1, x.1 ≤ t) : bucket A (r1 ++ (t, B) :: r2) n = if n ≤ t then bucket A r1 n else bucket B r2 n := by
  induction r1 generalizing A with
  | nil => rfl
  | cons x r1 ih =>
    have hx := h x (by simp)
    have := ih x.2 (fun y hy => h y (by simp [hy]))
    simp only [List.cons_append, bucket, this]
    by_cases h1 : n ≤ x.1
    · have : n ≤ t := by omega
      simp only [h1, this, if_true]
    · simp only [h1, if_false]

theorem segragatorBuild_spec {α} (R : Bool) (fuel : Nat) (A : α) (rest : List (Nat × α))
    (hk : (interleave A rest).length ≤ 2 ^ 63) (hf : (interleave A rest).length ≤ fuel) :
    ∃ T, segragatorBuild R fuel (interleave A rest) = some T ∧
      T.leaves = A :: rest.map Prod.snd ∧ T.thresholds = rest.map Prod.fst ∧
      ((rest.map Prod.fst).Pairwise (· ≤ ·) → ∀ n, T.route n = bucket A rest n) ∧
      ∀ d, rest.length + 1 ≤ 2 ^ d → T.depth ≤ d := by
  induction fuel generalizing A rest with
  | zero => rw [interleave_length] at hf; omega
  | succ fuel ih =>
    cases hrest : rest with
    | nil => exact ⟨.leaf A, rfl, rfl, rfl, fun _ _ => rfl, fun d _ => Nat.zero_le d⟩
    | cons x0 rest0 =>
      rw [← hrest]
      have hpos : 1 ≤ rest.length := by rw [hrest]; simp
      have hlen := interleave_length A rest
      have hk' := hk
      rw [hlen] at hk'
      obtain ⟨m, e1, e2, e3, e4⟩ := pow2_half (2 * rest.length + 1) (by omega) hk'
      cases m with
      | zero => simp at e3; omega
      | succ m =>
      have hm0 : 0 < 2 ^ m := Nat.pow_pos (by decide)
      have hps : (2:Nat) ^ (m + 1) = 2 * 2 ^ m := by rw [Nat.pow_succ, Nat.mul_comm]
      have hps2 : (2:Nat) ^ (m + 1 + 1) = 4 * 2 ^ m := by rw [Nat.pow_succ, hps]; omega
      have hhalf : subW (pow2 (2 * rest.length + 1)) 1 / 2 = 2 * 2 ^ m - 1 := by rw [e1, hps2]; unfold subW; omega
      have hsub : subW (subW (2 * rest.length + 1) 1) (2 * 2 ^ m - 1) = 2 * (rest.length - 2 ^ m) + 1 := by unfold subW; omega
      have hodd : ¬ (2 * rest.length + 1) % 2 = 0 := by omega
      -- `a` thresholds on the left, one in the middle, `b` on the right
      have main : ∀ a b, a + 1 + b = rest.length → a + 1 ≤ 2 ^ m → b + 1 ≤ 2 ^ m →
          sizeInvert R (subW (pow2 (2 * rest.length + 1)) 1 / 2) (subW (2 * rest.length + 1) 1) = (2 * a + 1, 2 * b + 1) →
          ∃ T, segragatorBuild R (fuel + 1) (interleave A rest) = some T ∧
            T.leaves = A :: rest.map Prod.snd ∧ T.thresholds = rest.map Prod.fst ∧
            ((rest.map Prod.fst).Pairwise (· ≤ ·) → ∀ n, T.route n = bucket A rest n) ∧
            ∀ d, rest.length + 1 ≤ 2 ^ d → T.depth ≤ d := by
        intro a b hab ha hb hs
        have hal : a < rest.length := by omega
        have hsplit : rest = rest.take a ++ (rest[a].1, rest[a].2) :: rest.drop (a + 1) := by
          conv => lhs; rw [← List.take_append_drop a rest, List.drop_eq_getElem_cons hal]
        generalize hr1 : rest.take a = r1 at hsplit
        generalize hr2 : rest.drop (a + 1) = r2 at hsplit
        generalize ht : rest[a].1 = t at hsplit
        generalize hB : rest[a].2 = B at hsplit
        have hl1 : r1.length = a := by rw [← hr1]; simp; omega
        have hl2 : r2.length = b := by rw [← hr2]; simp; omega
        obtain ⟨q1, q2, q3⟩ := interleave_split A r1 t B r2
        rw [← hsplit, hl1] at q1 q2 q3
        obtain ⟨l, l1, l2, l3, l4, l5⟩ := ih A r1 (by rw [interleave_length]; omega) (by rw [interleave_length]; omega)
        obtain ⟨r, g1, g2, g3, g4, g5⟩ := ih B r2 (by rw [interleave_length]; omega) (by rw [interleave_length]; omega)
        refine ⟨.node t l r, ?_, ?_, ?_, ?_, ?_⟩
        · have hts : tupleSplit 1 (2 * a + 1) (2 * b + 1) (interleave A rest) = some (interleave A r1, interleave B r2) := by
            rw [tupleSplit_eq 1 _ _ _ (by rw [interleave_length]; omega), q1, q2]
          have hun : segragatorBuild R (fuel + 1) (interleave A rest) =
              if (interleave A rest).length % 2 = 0 then none
              else
                let middle := sizeInvert R (subW (pow2 (interleave A rest).length) 1 / 2) (subW (interleave A rest).length 1)
                match tupleSplit 1 middle.1 middle.2 (interleave A rest), (interleave A rest)[middle.1]? with
                | some (ts1, ts2), some (.thr t) =>
                  match segragatorBuild R fuel ts1, segragatorBuild R fuel ts2 with
                  | some l, some r => some (.node t l r)
                  | _, _ => none
                | _, _ => none := by
            rw [hrest]; rfl
          rw [hun, hlen]
          simp only [hodd, if_false, hs, hts, q3, l1, g1]
        · rw [STree.leaves, l2, g2, hsplit]; simp
        · rw [STree.thresholds, l3, g3, hsplit]; simp
        · intro hsort n
          rw [hsplit, List.map_append, List.map_cons, List.pairwise_append] at hsort
          obtain ⟨s1, s2, s3⟩ := hsort
          rw [List.pairwise_cons] at s2
          rw [STree.route, l4 s1, g4 s2.2, hsplit, bucket_split]
          intro x hx
          exact s3 x.1 (List.mem_map_of_mem hx) t (by simp)
        · intro d hd
          cases d with
          | zero => rw [Nat.pow_zero] at hd; omega
          | succ d =>
            have hmd : m ≤ d := by
              apply Classical.byContradiction
              intro hc
              have := Nat.pow_le_pow_right (show 0 < 2 by decide) (show d + 1 ≤ m by omega)
              omega
            have hp := Nat.pow_le_pow_right (show 0 < 2 by decide) hmd
            have a1 := l5 d (by omega)
            have a2 := g5 d (by omega)
            simp only [STree.depth]; omega
      cases R with
      | false =>
        exact main (2 ^ m - 1) (rest.length - 2 ^ m) (by omega) (by omega) (by omega)
          (by simp only [sizeInvert, hhalf, hsub]; simp; omega)
      | true =>
        exact main (rest.length - 2 ^ m) (2 ^ m - 1) (by omega) (by omega) (by omega)
          (by simp only [sizeInvert, hhalf, hsub]; simp; omega)

/-- **C38.** `segragator_builder_min/max<A0, t1, A1, ..., tr, Ar>` always compiles (in particular the
`static_assert` never fires in the recursion), uses the given allocators and thresholds in order and, for
increasing thresholds, routes every size to the right bucket. -/
theorem C38_builder_routes {α} (R : Bool) (A : α) (rest : List (Nat × α)) (hk : (interleave A rest).length ≤ 2 ^ 63) :
    ∃ T, segragatorBuild R (interleave A rest).length (interleave A rest) = some T ∧
      T.leaves = A :: rest.map Prod.snd ∧ T.thresholds = rest.map Prod.fst ∧
      ((rest.map Prod.fst).Pairwise (· ≤ ·) → ∀ n, T.route n = bucket A rest n) := by
  obtain ⟨T, h1, h2, h3, h4, _⟩ := segragatorBuild_spec R _ A rest hk (Nat.le_refl _)
  exact ⟨T, h1, h2, h3, h4⟩

/-- **C38, static_assert.** With an even number of arguments the builder does not compile. -/
theorem C38_even_rejected {α} (R : Bool) (fuel : Nat) (ts : List (Item α)) (h : ts.length % 2 = 0) :
    segragatorBuild R fuel ts = none := by
  cases fuel with
  | zero => rfl
  | succ fuel =>
    match ts, h with
    | [], _ => rfl
    | [.alloc a], h => simp at h
    | [.thr a], h => simp at h
    | x :: y :: ts, h => simp only [segragatorBuild, h, if_true]

/-- **C39, `segragator_builder`.** The depth is at most `ceil(log2 k)` for `k` allocators. -/
theorem C39_segragator_depth {α} (R : Bool) (A : α) (rest : List (Nat × α)) (hk : (interleave A rest).length ≤ 2 ^ 63) (T : STree α)
    (hT : segragatorBuild R (interleave A rest).length (interleave A rest) = some T) (d : Nat) (hd : rest.length + 1 ≤ 2 ^ d) :
    T.depth ≤ d := by
  obtain ⟨T', h1, _, _, _, h3⟩ := segragatorBuild_spec R _ A rest hk (Nat.le_refl _)
  rw [h1] at hT; cases hT
  exact h3 d hd

/-- Specification: perform `op` on the allocator the thresholds `ts` select for size `n`, and on no other. -/
def atBucket {β : Type} (op : (A : Allocator) → A.St → M (β × A.St)) (n : Nat) :
    (l : List Allocator) → List Nat → HState l → M (Option β × HState l)
  | [], _, s => pure (none, s)
  | A :: _, [], s => do
    let r ← op A s.1
    pure (some r.1, (r.2, s.2))
  | A :: l, t :: ts, s =>
    if n ≤ t then do
      let r ← op A s.1
      pure (some r.1, (r.2, s.2))
    else do
      let r ← atBucket op n l ts s.2
      pure (r.1, (s.1, r.2))

def STree.flat : (T : STree Allocator) → T.denote.St → HState T.leaves
  | .leaf _, s => (s, ())
  | .node _ l r, s => HState.app (l.flat s.1) (r.flat s.2)

theorem STree.leaves_length {α} (T : STree α) : T.leaves.length = T.thresholds.length + 1 := by
  induction T with
  | leaf a => rfl
  | node t l r ihl ihr => simp only [STree.leaves, STree.thresholds, List.length_append, List.length_cons, ihl, ihr]; omega

theorem atBucket_app {β : Type} (op : (A : Allocator) → A.St → M (β × A.St)) (n : Nat) (l1 l2 : List Allocator) (th1 th2 : List Nat) (t : Nat)
    (hl : l1.length = th1.length + 1) (ht : ∀ x ∈ th1, x ≤ t) (a : HState l1) (b : HState l2) :
    atBucket op n (l1 ++ l2) (th1 ++ t :: th2) (a.app b) =
      if n ≤ t then (do let r ← atBucket op n l1 th1 a; pure (r.1, r.2.app b))
      else (do let r ← atBucket op n l2 th2 b; pure (r.1, a.app r.2)) := by
  induction l1 generalizing th1 with
  | nil => simp at hl
  | cons A l ih =>
    cases th1 with
    | nil =>
      cases l with
      | cons _ _ => simp at hl
      | nil =>
        show (if n ≤ t then (do let r ← op A a.1; pure (some r.1, (r.2, b)))
          else (do let r ← atBucket op n l2 th2 b; pure (r.1, (a.1, r.2))) : M (Option β × (A.St × HState l2))) =
          if n ≤ t then (do let r ← (do let r ← op A a.1; pure (some r.1, (r.2, a.2)) : M (Option β × (A.St × Unit))); pure (r.1, (r.2.1, b)))
          else (do let r ← atBucket op n l2 th2 b; pure (r.1, (a.1, r.2)))
        simp only [bind_assoc, pure_bind]
    | cons t1 th1 =>
      have h1 := ht t1 (by simp)
      have := ih th1 (by simpa using hl) (fun x hx => ht x (by simp [hx])) a.2
      show (if n ≤ t1 then (do let r ← op A a.1; pure (some r.1, (r.2, HState.app a.2 b)))
          else (do let r ← atBucket op n (l ++ l2) (th1 ++ t :: th2) (HState.app a.2 b); pure (r.1, (a.1, r.2))) : M (Option β × (A.St × HState (l ++ l2)))) =
          if n ≤ t then (do
            let r ← (if n ≤ t1 then (do let r ← op A a.1; pure (some r.1, (r.2, a.2)))
              else (do let r ← atBucket op n l th1 a.2; pure (r.1, (a.1, r.2))) : M (Option β × (A.St × HState l)))
            pure (r.1, (r.2.1, HState.app r.2.2 b)))
          else (do let r ← atBucket op n l2 th2 b; pure (r.1, (a.1, HState.app a.2 r.2)))
      rw [this]
      by_cases c1 : n ≤ t1
      · have c2 : n ≤ t := by omega
        simp only [c1, c2, if_true, bind_assoc, pure_bind]
      · by_cases c2 : n ≤ t
        · simp only [c1, c2, if_true, if_false, bind_assoc, pure_bind]
        · simp only [c1, c2, if_false, bind_assoc, pure_bind]

/-- the two size-routed operations -/
def allocOp (n : Nat) (A : Allocator) (s : A.St) : M (Nat × A.St) := A.alloc s n
def deallocOp (p n : Nat) (A : Allocator) (s : A.St) : M (Unit × A.St) := do
  let s ← A.dealloc s p n
  pure ((), s)

theorem route_op {β : Type} (op : (A : Allocator) → A.St → M (β × A.St)) (n : Nat)
    (hop : ∀ t P F (s : (segragator t P F).St), op (segragator t P F) s =
      if n ≤ t then (do let r ← op P s.1; pure (r.1, (r.2, s.2))) else (do let r ← op F s.2; pure (r.1, (s.1, r.2))))
    (T : STree Allocator) (hs : T.thresholds.Pairwise (· ≤ ·)) (s : T.denote.St) :
    (do let r ← op T.denote s; pure (some r.1, T.flat r.2)) = atBucket op n T.leaves T.thresholds (T.flat s) := by
  induction T with
  | leaf A => rfl
  | node t l r ihl ihr =>
    rw [STree.thresholds, List.pairwise_append] at hs
    obtain ⟨s1, s2, s3⟩ := hs
    rw [List.pairwise_cons] at s2
    have e := atBucket_app op n l.leaves r.leaves l.thresholds r.thresholds t l.leaves_length (fun x hx => s3 x hx t (by simp)) (l.flat s.1) (r.flat s.2)
    refine Eq.trans ?_ e.symm
    rw [← ihl s1 s.1, ← ihr s2.2 s.2]
    refine Eq.trans (congrArg (fun c : M (β × (segragator t l.denote r.denote).St) => c >>= fun q => (pure (some q.1, (STree.node t l r).flat q.2) : M (Option β × HState (STree.node t l r).leaves))) (hop t l.denote r.denote s)) ?_
    show (do
      let q ← (if n ≤ t then (do let r ← op l.denote s.1; pure (r.1, (r.2, s.2))) else (do let x ← op r.denote s.2; pure (x.1, (s.1, x.2))) :
        M (β × (l.denote.St × r.denote.St)))
      pure (some q.1, HState.app (l.flat q.2.1) (r.flat q.2.2)) : M (Option β × HState (l.leaves ++ r.leaves))) = _
    by_cases c : n ≤ t
    · simp only [c, if_true, bind_assoc, pure_bind]
    · simp only [c, if_false, bind_assoc, pure_bind]

/-- **C38, operations.** In a tree of `segragator`s with increasing thresholds an allocation of `n` bytes
is performed by the allocator of the bucket of `n`, and touches no other. -/
theorem C38_alloc_in_bucket (T : STree Allocator) (hs : T.thresholds.Pairwise (· ≤ ·)) (s : T.denote.St) (n : Nat) :
    (do let r ← T.denote.alloc s n; pure (some r.1, T.flat r.2)) = atBucket (allocOp n) n T.leaves T.thresholds (T.flat s) := by
  refine route_op (allocOp n) n (fun t P F s => ?_) T hs s
  simp only [allocOp, segragator]

/-- **C38, operations.** A deallocation with the same size goes back to that allocator. -/
theorem C38_dealloc_in_bucket (T : STree Allocator) (hs : T.thresholds.Pairwise (· ≤ ·)) (s : T.denote.St) (p n : Nat) :
    (do let r ← T.denote.dealloc s p n; pure (some (), T.flat r)) = atBucket (deallocOp p n) n T.leaves T.thresholds (T.flat s) := by
  have := route_op (deallocOp p n) n (fun t P F s => ?_) T hs s
  · rw [← this]; simp only [deallocOp, bind_assoc, pure_bind]
  · simp only [deallocOp, segragator]
    by_cases c : n ≤ t <;> simp [c]

example : segragatorBuild false 7 (interleave 'a' [(8, 'b'), (16, 'c'), (64, 'd')]) =
    some (.node 16 (.node 8 (.leaf 'a') (.leaf 'b')) (.node 64 (.leaf 'c') (.leaf 'd'))) := by decide +kernel
example : segragatorBuild true 5 (interleave 'a' [(8, 'b'), (16, 'c')]) =
    some (.node 8 (.leaf 'a') (.node 16 (.leaf 'b') (.leaf 'c'))) := by decide +kernel
example : bucket 'a' [(8, 'b'), (16, 'c'), (64, 'd')] 65 = 'd' ∧ bucket 'a' [(8, 'b'), (16, 'c'), (64, 'd')] 16 = 'b' := by decide

end KTL
