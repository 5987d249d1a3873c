import Verif.Props.Narrow
import Verif.Props.Array
import Verif.Props.BinaryHeap

/- C92 for arrays and heaps: containers over allocators of the user with a `size_type` smaller than `size_t`. -/
namespace KTL
variable {α : Type}

/-! ### Containers over any allocator that keeps the contract -/

theorem array_is_seq_of {A : Allocator} {fA : Nat → Prop} (hA : Sound A fA) (b : Nat) (w : World) (hs : Storage w b A.objSize)
    (sz : Nat) (hz : 0 < sz) (ops : List ArrOp)
    (hfit : (∀ n, 0 < n → n ≤ 2 * aweights ops → sz * n < W64 ∧ fA (sz * n)) ∧ ((∃ o ∈ ops, o.mayBeEmpty = true) → fA 0)) :
    match aplay sz A b ops w with
    | .ok c w' => ∃ S, Seqs.ARun sz ⟨[], []⟩ ops S ∧ c.seen = S.seen ∧ c.vs.length = S.xs.length ∧
        ∀ (i : Nat) (v : Arr) (xs : List (List UInt8)), c.vs[i]? = some v → S.xs[i]? = some xs → v.size sz = xs.length ∧
          ∀ (k : Nat) (e : List UInt8), xs[k]? = some e → e.length = sz ∧ ∀ j, j < sz → w'.heap.b (v.beg + k * sz + j) = e[j]?
    | .oom w' => w'.failed = true
    | .ub => False := by
  obtain ⟨h0, hf, hd, he, hb, hfb, hft⟩ := storage_split hs
  have := aplay_spec hA b sz hz ops hfit.1 hfit.2 hs.1 hs.2.1 hs.2.2.1 w h0 hf hd he hb
  cases hp : aplay sz A b ops w with
  | oom w' => rw [hp] at this; exact this
  | ub => rw [hp] at this; exact this
  | ok c w' =>
    rw [hp] at this
    obtain ⟨⟨h', hd', he', S, hrun, Γ, hv, hx, hseen, hok, hpool⟩, hna⟩ := this
    have hlen : c.vs.length = S.xs.length := by
      have := congrArg List.length hv
      rw [hx, List.length_map] at *
      simpa [Arrs.vecs] using this
    refine ⟨S, hrun, hseen, hlen, fun i v xs hi hi' => ?_⟩
    rcases VInv.get hv hx i with ⟨_, _, h2⟩ | ⟨g, h1, h1', h2, h3⟩
    · rw [h2] at hi'; cases hi'
    · rw [h3] at hi'
      obtain rfl := Option.some.inj hi'
      replace h2 : (c.vs.map Arr.vec)[i]? = some g.v := h2
      rw [List.getElem?_map, hi] at h2
      have hve : v.vec = g.v := Option.some.inj h2
      have hg := (hok g h1').rep
      rw [← hve] at hg
      refine ⟨hg.size_eq hz, fun k e hk => ?_⟩
      obtain ⟨hk1, rfl⟩ := List.getElem?_eq_some_iff.1 hk
      have hel := hg.elems _ (List.getElem_mem hk1)
      refine ⟨hel, fun j hj => ?_⟩
      have hlt : k * sz + sz ≤ g.xs.length * sz := by
        have := Nat.mul_le_mul_right sz hk1
        rw [Nat.succ_mul] at this; exact this
      have e1 := pools_contents hpool hg (fun y hy => List.mem_flatMap.2 ⟨g, h1', by unfold Ghost.own; rw [← hve]; exact hy⟩) (k * sz + j) (by omega)
      have e2 : g.xs.flatten[k * sz + j]? = g.xs[k][j]? := by
        have hsl := hg.slice k 1 hk1
        rw [List.drop_eq_getElem_cons hk1, List.take_succ_cons, List.take_zero, List.flatten_singleton, Nat.one_mul] at hsl
        rw [← hg.data, List.getElem?_take_of_lt (by omega), ← hsl, List.getElem?_take_of_lt hj, List.getElem?_drop]
      rw [e2] at e1
      have hj' : j < g.xs[k].length := by rw [hel]; exact hj
      rw [List.getElem?_eq_getElem hj'] at e1 ⊢
      rw [he', Nat.add_assoc]
      exact heap_add_left e1

theorem array_no_leak_of {A : Allocator} {fA : Nat → Prop} (hA : Sound A fA) (b : Nat) (w : World) (hs : Storage w b A.objSize)
    (sz : Nat) (hz : 0 < sz) (ops : List ArrOp)
    (hfit : (∀ n, 0 < n → n ≤ 2 * aweights ops → sz * n < W64 ∧ fA (sz * n)) ∧ ((∃ o ∈ ops, o.mayBeEmpty = true) → fA 0)) :
    match alife sz (strict A) b ops w with
    | .ok _ w' => (∀ x, ¬ (b ≤ x ∧ x < b + A.objSize) → w'.heap.b x = w.heap.b x) ∧
        (∀ x, b ≤ x → x < b + A.objSize → (w'.heap.b x).isSome = true) ∧ ∀ a, w'.heap.t a = w.heap.t a
    | .oom w' => w'.failed = true
    | .ub => False := by
  obtain ⟨h0, hf, hd, he, hb, hfb, hft⟩ := storage_split hs
  have hsz : (strict A).objSize = A.objSize := rfl
  have := alife_spec (strict_sound hA) b sz hz ops hfit.1 hfit.2 hs.1 hs.2.1 (by rw [hsz]; exact hs.2.2.1) w h0 hf hd he
    (by rw [hsz]; exact hb)
  cases hp : alife sz (strict A) b ops w with
  | oom w' => rw [hp] at this; exact this
  | ub => rw [hp] at this; exact this
  | ok c w' =>
    rw [hp] at this
    obtain ⟨⟨h', hd', he', hby⟩, hna⟩ := this
    rw [hsz] at hby
    refine ⟨fun x hx => ?_, fun x h1 h2 => ?_, fun a => ?_⟩
    · have : h'.b x = none := isSome_eq_none.1 (mt (hby.2 x).1 hx)
      rw [he']
      simp only [Heap.add, this, hfb, hx, if_false]; rfl
    · rw [he']
      exact heap_left_isSome ((hby.2 x).2 ⟨h1, h2⟩)
    · rw [he']
      simp only [Heap.add, hby.1 a, hft]; rfl

theorem heap_is_bag_of {A : Allocator} {fA : Nat → Prop} (hA : Sound A fA) (b : Nat) (w : World) (hs : Storage w b A.objSize)
    (E : Elt α) (hE : E.Ok) (comp eq : α → α → Bool) (ops : List (BOp α))
    (hfit : (∀ n, 0 < n → n ≤ 2 * hweights ops → E.size * n < W64 ∧ fA (E.size * n)) ∧ ((∃ o ∈ ops, o.mayBeEmpty = true) → fA 0)) :
    match hplay E comp eq A b ops w with
    | .ok c w' => (E.trivial = true ∨ popsLast [] ops = false) ∧
        ∃ S, Bags.Run comp eq ⟨[], []⟩ ops S ∧ c.seen = S.seen ∧ c.hs.length = S.xs.length ∧
        ∀ (i : Nat) (h : BHeap) (xs : List α), c.hs[i]? = some h → S.xs[i]? = some xs →
          h.size = xs.length ∧ h.size ≤ h.cap ∧ Holds E c.objs w' h.beg xs ∧ (StrictWeak comp → HeapOrd comp xs)
    | .oom w' => w'.failed = true
    | .ub => E.trivial = false ∧ popsLast [] ops = true := by
  obtain ⟨h0, hf, hd, he, hb, hfb, hft⟩ := storage_split hs
  have hex : match hplay E comp eq A b ops w with
      | .ok _ _ => E.trivial = true ∨ popsLast [] ops = false
      | .oom w' => w'.failed = true
      | .ub => E.trivial = false ∧ popsLast [] ops = true := by
    have hi := hA.init_spec b hs.1 hs.2.1 hs.2.2.1 w h0 hf hd he hb
    unfold hplay
    rw [M.bind_apply]
    cases hr : A.init b w with
    | oom w' => rw [hr] at hi; exact hi
    | ub => rw [hr] at hi; exact hi.elim
    | ok s w1 =>
      rw [hr] at hi
      obtain ⟨⟨h', hd', he', hx⟩, _⟩ := hi
      exact hrun_exact hA b _ hE comp eq hfit.1 ops hfit.2 0 [] { st := s, objs := fun _ => none, hs := [] } ⟨[], []⟩ (by omega) w1 h' hf hd' he'
        ⟨[], rfl, rfl, rfl, rfl, fun g hg => by simp at hg, tpool_start hx⟩
  cases hp : hplay E comp eq A b ops w with
  | oom w' => rw [hp] at hex; exact hex
  | ub => rw [hp] at hex; exact hex
  | ok c w' =>
    rw [hp] at hex
    have := hplay_spec hA b hE comp eq ops hfit.1 hfit.2 hex hs.1 hs.2.1 hs.2.2.1 w h0 hf hd he hb
    rw [hp] at this
    obtain ⟨⟨h', hd', he', S, hrun, ns, hI⟩, hna⟩ := this
    obtain ⟨h1, h2, h3⟩ := hI.final hE he'
    exact ⟨hex, S, hrun, h1, h2, h3⟩

theorem heap_lifetimes_of {A : Allocator} {fA : Nat → Prop} (hA : Sound A fA) (b : Nat) (w : World) (hs : Storage w b A.objSize)
    (E : Elt α) (hE : E.Ok) (comp eq : α → α → Bool) (ops : List (BOp α))
    (hfit : (∀ n, 0 < n → n ≤ 2 * hweights ops → E.size * n < W64 ∧ fA (E.size * n)) ∧ ((∃ o ∈ ops, o.mayBeEmpty = true) → fA 0))
    (hpop : E.trivial = true ∨ popsLast [] ops = false) :
    match hlife E comp eq (strict A) b ops w with
    | .ok o w' => (∀ p, o p = none) ∧ (∀ x, ¬ (b ≤ x ∧ x < b + A.objSize) → w'.heap.b x = w.heap.b x) ∧
        (∀ x, b ≤ x → x < b + A.objSize → (w'.heap.b x).isSome = true) ∧ ∀ a, w'.heap.t a = w.heap.t a
    | .oom w' => w'.failed = true
    | .ub => False := by
  obtain ⟨h0, hf, hd, he, hb, hfb, hft⟩ := storage_split hs
  have hsz : (strict A).objSize = A.objSize := rfl
  have := hlife_spec (strict_sound hA) b hE comp eq ops hfit.1 hfit.2 hpop hs.1 hs.2.1 (by rw [hsz]; exact hs.2.2.1) w h0 hf hd he
    (by rw [hsz]; exact hb)
  cases hp : hlife E comp eq (strict A) b ops w with
  | oom w' => rw [hp] at this; exact this
  | ub => rw [hp] at this; exact this
  | ok o w' =>
    rw [hp] at this
    obtain ⟨⟨h', hd', he', hnone, hby⟩, hna⟩ := this
    rw [hsz] at hby
    refine ⟨hnone, fun x hx => ?_, fun x h1 h2 => ?_, fun a => ?_⟩
    · have : h'.b x = none := isSome_eq_none.1 (mt (hby.2 x).1 hx)
      rw [he']
      simp only [Heap.add, this, hfb, hx, if_false]; rfl
    · rw [he']
      exact heap_left_isSome ((hby.2 x).2 ⟨h1, h2⟩)
    · rw [he']
      simp only [Heap.add, hby.1 a, hft]; rfl

/-! ### C92 -/

/-- The bound of C92 for programs with arrays; none of the operations asks for an empty block. -/
def NASane (t : NTy) (sz : Nat) (ops : List ArrOp) : Prop :=
  sz * (2 * aweights ops) + t.margin < t.least ∧ ∀ o ∈ ops, o.mayBeEmpty = false

/-- The bound of C92 for programs with heaps; none of the operations asks for an empty block. -/
def NHSane (t : NTy) (E : Elt α) (ops : List (BOp α)) : Prop :=
  E.size * (2 * hweights ops) + t.margin < t.least ∧ ∀ o ∈ ops, o.mayBeEmpty = false

theorem NTy.fits_below {t : NTy} (hwf : t.WF) {sz N : Nat} (hz : 0 < sz) (h1 : sz * (2 * N) + t.margin < t.least) (plat : Plat) :
    ∀ n, 0 < n → n ≤ 2 * N → sz * n < W64 ∧ t.fits plat (sz * n) := by
  have h2 := t.least_le
  have h3 := t.width_le
  intro n hn hle
  have hm : sz * n ≤ sz * (2 * N) := Nat.mul_le_mul_left _ hle
  have hp : 0 < sz * n := Nat.mul_pos hz hn
  exact ⟨by omega, t.fits_of_margin plat hwf _ hp (by omega)⟩

/-- **C92, arrays.** Programs with arrays over such an allocator see mathematical sequences, as in C49. -/
theorem C92_narrow_array_partial (sys : Sys) (t : NTy) (hwf : t.WF) (b : Nat) (w : World) (hs : Storage w b t.size)
    (sz : Nat) (hz : 0 < sz) (ops : List ArrOp) (hops : NASane t sz ops) :
    match aplay sz (t.denote sys) b ops w with
    | .ok c w' => ∃ S, Seqs.ARun sz ⟨[], []⟩ ops S ∧ c.seen = S.seen ∧ c.vs.length = S.xs.length ∧
        ∀ (i : Nat) (v : Arr) (xs : List (List UInt8)), c.vs[i]? = some v → S.xs[i]? = some xs → v.size sz = xs.length ∧
          ∀ (k : Nat) (e : List UInt8), xs[k]? = some e → e.length = sz ∧ ∀ j, j < sz → w'.heap.b (v.beg + k * sz + j) = e[j]?
    | .oom w' => w'.failed = true
    | .ub => False := by
  rw [← t.objSize_eq sys] at hs
  have := array_is_seq_of (t.sound sys hwf) b w hs sz hz ops
    ⟨t.fits_below hwf hz hops.1 sys.plat, fun ⟨o, ho, he⟩ => by rw [hops.2 o ho] at he; cases he⟩
  cases hp : aplay sz (t.denote sys) b ops w <;> (rw [hp] at this; exact this)

/-- **C92, arrays,** blocks are returned with the sizes they were allocated with, and nothing is leaked. -/
theorem C92_narrow_array_returns_partial (sys : Sys) (t : NTy) (hwf : t.WF) (b : Nat) (w : World) (hs : Storage w b t.size)
    (sz : Nat) (hz : 0 < sz) (ops : List ArrOp) (hops : NASane t sz ops) :
    match alife sz (strict (t.denote sys)) b ops w with
    | .ok _ w' => (∀ x, ¬ (b ≤ x ∧ x < b + t.size) → w'.heap.b x = w.heap.b x) ∧
        (∀ x, b ≤ x → x < b + t.size → (w'.heap.b x).isSome = true) ∧ ∀ a, w'.heap.t a = w.heap.t a
    | .oom w' => w'.failed = true
    | .ub => False := by
  rw [← t.objSize_eq sys] at hs ⊢
  have := array_no_leak_of (t.sound sys hwf) b w hs sz hz ops
    ⟨t.fits_below hwf hz hops.1 sys.plat, fun ⟨o, ho, he⟩ => by rw [hops.2 o ho] at he; cases he⟩
  cases hp : alife sz (strict (t.denote sys)) b ops w <;> (rw [hp] at this; exact this)

/-- **C92, heaps.** Programs with heaps over such an allocator see bags, as in C52, and with a strict weak order the elements stay in heap
order. They stop early only if memory runs out or where they pop the last element of a heap of a non-trivial type (`C56_false`). -/
theorem C92_narrow_heap_partial (sys : Sys) (t : NTy) (hwf : t.WF) (b : Nat) (w : World) (hs : Storage w b t.size)
    (E : Elt α) (hE : E.Ok) (comp eq : α → α → Bool) (ops : List (BOp α)) (hops : NHSane t E ops) :
    match hplay E comp eq (t.denote sys) b ops w with
    | .ok c w' => (E.trivial = true ∨ popsLast [] ops = false) ∧
        ∃ S, Bags.Run comp eq ⟨[], []⟩ ops S ∧ c.seen = S.seen ∧ c.hs.length = S.xs.length ∧
        ∀ (i : Nat) (h : BHeap) (xs : List α), c.hs[i]? = some h → S.xs[i]? = some xs →
          h.size = xs.length ∧ h.size ≤ h.cap ∧ Holds E c.objs w' h.beg xs ∧ (StrictWeak comp → HeapOrd comp xs)
    | .oom w' => w'.failed = true
    | .ub => E.trivial = false ∧ popsLast [] ops = true := by
  rw [← t.objSize_eq sys] at hs
  have := heap_is_bag_of (t.sound sys hwf) b w hs E hE comp eq ops
    ⟨t.fits_below hwf hE.pos hops.1 sys.plat, fun ⟨o, ho, he⟩ => by rw [hops.2 o ho] at he; cases he⟩
  cases hp : hplay E comp eq (t.denote sys) b ops w <;> (rw [hp] at this; exact this)

/-- **C92, heaps,** lifetimes are respected, blocks are returned with the sizes they were allocated with, and nothing is leaked, as in C56. -/
theorem C92_narrow_heap_returns_partial (sys : Sys) (t : NTy) (hwf : t.WF) (b : Nat) (w : World) (hs : Storage w b t.size)
    (E : Elt α) (hE : E.Ok) (comp eq : α → α → Bool) (ops : List (BOp α)) (hops : NHSane t E ops)
    (hpop : E.trivial = true ∨ popsLast [] ops = false) :
    match hlife E comp eq (strict (t.denote sys)) b ops w with
    | .ok o w' => (∀ p, o p = none) ∧ (∀ x, ¬ (b ≤ x ∧ x < b + t.size) → w'.heap.b x = w.heap.b x) ∧
        (∀ x, b ≤ x → x < b + t.size → (w'.heap.b x).isSome = true) ∧ ∀ a, w'.heap.t a = w.heap.t a
    | .oom w' => w'.failed = true
    | .ub => False := by
  rw [← t.objSize_eq sys] at hs ⊢
  have := heap_lifetimes_of (t.sound sys hwf) b w hs E hE comp eq ops
    ⟨t.fits_below hwf hE.pos hops.1 sys.plat, fun ⟨o, ho, he⟩ => by rw [hops.2 o ho] at he; cases he⟩ hpop
  cases hp : hlife E comp eq (strict (t.denote sys)) b ops w <;> (rw [hp] at this; exact this)

/-! ### The hypotheses are met -/

example : NASane demoNTy 4 [.newRange [[1, 2, 3, 4], [5, 6, 7, 8]], .resize 0 3, .move 0, .assign 0 [[0, 0, 0, 1]], .assignFrom 0 1 1 2, .read 0 1] := by
  refine ⟨by decide, ?_⟩
  intro o ho
  simp only [List.mem_cons, List.not_mem_nil, or_false] at ho
  rcases ho with rfl | rfl | rfl | rfl | rfl | rfl <;> decide
example : NHSane demoNTy demoElt [.newList [3, 1, 2], .insert 0 7, .pop 0, .reserve 0 9, .find 0 2, .clear 0] := by
  refine ⟨by decide, ?_⟩
  intro o ho
  simp only [List.mem_cons, List.not_mem_nil, or_false] at ho
  rcases ho with rfl | rfl | rfl | rfl | rfl | rfl <;> decide
/-- a heap of two byte elements in a user's allocator whose `size_type` is smaller than `size_t` -/
example : ((hplay demoElt demoLess (fun a b => a == b) (demoNTy.denote (demoSys .manual)) 4096
    [.newList [3, 1, 2], .insert 0 7, .pop 0, .find 0 2] (demoWorld demoNTy.size)).test fun c _ => decide (c.hs.map BHeap.size = [3])) = true := by
  decide +kernel

end KTL
