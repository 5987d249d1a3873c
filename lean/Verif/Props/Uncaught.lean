import Verif.Props.ArrayThrown

/- C105, continued: vectors and heaps over allocators that throw. Their functions that grow are `noexcept`, so an exception ends the
program; so does one out of a constructor that nobody catches. -/
namespace KTL

/-- The allocator as seen by code that lets no exception out: one thrown by the constructor or by `allocate` ends the program
(`std::terminate`; `containers/trivial_vector.h:116`, `containers/trivial_vector.h:172`, `containers/trivial_vector.h:285-459`,
`containers/binary_heap.h:67`, `containers/binary_heap.h:285-301`, `containers/binary_heap.h:366-374`). -/
@[reducible] def XAlloc.ending (X : XAlloc) : Allocator := { X.toA with
  alloc := fun s n => do
    let r ← X.alloc s n
    match r.1 with
    | some p => pure (p, r.2)
    | none => XAlloc.stop }

/-- Proof helper, not code. -/
def ending_sound {X : XAlloc} {f : Nat → Prop} (hX : XSound X f) : Sound X.ending f :=
  hX.sound.with3 _ X.ending.alloc _ hX.sound.init_spec
    (fun b s L n hf hn => by
      have h1 := hX.sound.alloc_spec b s L n hf hn
      intro w h hf' hd he hp
      have h2 := h1 w h hf' hd he hp
      simp only [XAlloc.toA, M.bind_apply] at h2 ⊢
      cases ha : X.alloc s n w with
      | ub => rw [ha] at h2; exact h2
      | oom w' => rw [ha] at h2; exact h2
      | ok r w' =>
        rw [ha] at h2
        obtain ⟨r1, r2⟩ := r
        cases r1 with
        | none => rfl
        | some p => exact h2)
    hX.sound.construct_spec

/-- Programs with vectors covered: none of the operations asks for an empty block, and sizes are small enough for all headers and guards. -/
def XVSane (t : XTy) (sz : Nat) (ops : List VOp) : Prop :=
  sz * (2 * weights ops) + t.margin < 2 ^ 64 ∧ ∀ o ∈ ops, o.mayBeEmpty = false

/-- The same for heaps. -/
def XHSane (t : XTy) {α : Type} (E : Elt α) (ops : List (BOp α)) : Prop :=
  E.size * (2 * hweights ops) + t.margin < 2 ^ 64 ∧ ∀ o ∈ ops, o.mayBeEmpty = false

theorem XTy.fits_below {t : XTy} (hwf : t.WF) {sz N : Nat} (hz : 0 < sz) (h1 : sz * (2 * N) + t.margin < 2 ^ 64) (plat : Plat) :
    ∀ n, 0 < n → n ≤ 2 * N → sz * n < W64 ∧ t.fits plat (sz * n) := by
  intro n hn hle
  have hm : sz * n ≤ sz * (2 * N) := Nat.mul_le_mul_left _ hle
  have hp : 0 < sz * n := Nat.mul_pos hz hn
  exact ⟨by omega, t.fits_of_margin plat hwf _ hp (by omega)⟩

/-- **C105, vectors.** Programs with vectors over allocators that throw: until an exception ends the program or memory is exhausted, they
see mathematical sequences, as in C42; nothing is undefined. -/
theorem C105_vector_uncaught (sys : Sys) (t : XTy) (hwf : t.WF) (b : Nat) (w : World) (hs : Storage w b t.size)
    (sz : Nat) (hz : 0 < sz) (ops : List VOp) (hops : XVSane t sz ops) :
    match vplay sz (t.denote sys).ending b ops w with
    | .ok c w' => ∃ S, Seqs.Run sz ⟨[], []⟩ ops S ∧ c.seen = S.seen ∧ c.vs.length = S.xs.length ∧
        ∀ (i : Nat) (v : Vec) (xs : List (List UInt8)), c.vs[i]? = some v → S.xs[i]? = some xs → v.size sz = xs.length ∧
          ∀ (k : Nat) (e : List UInt8), xs[k]? = some e → e.length = sz ∧ ∀ j, j < sz → w'.heap.b (v.beg + k * sz + j) = e[j]?
    | .oom w' => w'.failed = true
    | .ub => False := by
  rw [← t.objSize_eq sys] at hs
  have := vector_is_seq_of (ending_sound (t.sound sys hwf)) b w hs sz hz ops
    ⟨t.fits_below hwf hz hops.1 sys.plat, fun ⟨o, ho, he⟩ => by rw [hops.2 o ho] at he; cases he⟩
  cases hp : vplay sz (t.denote sys).ending b ops w <;> (rw [hp] at this; exact this)

/-- **C105, vectors.** If no exception ends the program, every block goes back once and with its size, and no memory is lost. -/
theorem C105_vector_uncaught_returns (sys : Sys) (t : XTy) (hwf : t.WF) (b : Nat) (w : World) (hs : Storage w b t.size)
    (sz : Nat) (hz : 0 < sz) (ops : List VOp) (hops : XVSane t sz ops) :
    match vlife sz (strict (t.denote sys).ending) b ops w with
    | .ok _ w' => (∀ x, ¬ (b ≤ x ∧ x < b + t.size) → w'.heap.b x = w.heap.b x) ∧
        (∀ x, b ≤ x → x < b + t.size → (w'.heap.b x).isSome = true) ∧ ∀ a, w'.heap.t a = w.heap.t a
    | .oom w' => w'.failed = true
    | .ub => False := by
  rw [← t.objSize_eq sys] at hs ⊢
  have := vector_no_leak_of (ending_sound (t.sound sys hwf)) b w hs sz hz ops
    ⟨t.fits_below hwf hz hops.1 sys.plat, fun ⟨o, ho, he⟩ => by rw [hops.2 o ho] at he; cases he⟩
  cases hp : vlife sz (strict (t.denote sys).ending) b ops w <;> (rw [hp] at this; exact this)

variable {α : Type}

/-- **C105, heaps.** Programs with heaps over allocators that throw: until an exception ends the program or memory is exhausted, they see
bags, as in C52, in heap order if the comparator is a strict weak order. They are undefined only where they pop the last element of a heap
of a non-trivial type (`C56_false`). -/
theorem C105_heap_uncaught (sys : Sys) (t : XTy) (hwf : t.WF) (b : Nat) (w : World) (hs : Storage w b t.size)
    (E : Elt α) (hE : E.Ok) (comp eq : α → α → Bool) (ops : List (BOp α)) (hops : XHSane t E ops) :
    match hplay E comp eq (t.denote sys).ending b ops w with
    | .ok c w' => (E.trivial = true ∨ popsLast [] ops = false) ∧
        ∃ S, Bags.Run comp eq ⟨[], []⟩ ops S ∧ c.seen = S.seen ∧ c.hs.length = S.xs.length ∧
        ∀ (i : Nat) (h : BHeap) (xs : List α), c.hs[i]? = some h → S.xs[i]? = some xs →
          h.size = xs.length ∧ h.size ≤ h.cap ∧ Holds E c.objs w' h.beg xs ∧ (StrictWeak comp → HeapOrd comp xs)
    | .oom w' => w'.failed = true
    | .ub => E.trivial = false ∧ popsLast [] ops = true := by
  rw [← t.objSize_eq sys] at hs
  have := heap_is_bag_of (ending_sound (t.sound sys hwf)) b w hs E hE comp eq ops
    ⟨t.fits_below hwf hE.pos hops.1 sys.plat, fun ⟨o, ho, he⟩ => by rw [hops.2 o ho] at he; cases he⟩
  cases hp : hplay E comp eq (t.denote sys).ending b ops w <;> (rw [hp] at this; exact this)

/-- **C105, heaps.** If no exception ends the program, every object is destroyed once, every block goes back once and with its size, and no
memory is lost. -/
theorem C105_heap_uncaught_returns (sys : Sys) (t : XTy) (hwf : t.WF) (b : Nat) (w : World) (hs : Storage w b t.size)
    (E : Elt α) (hE : E.Ok) (comp eq : α → α → Bool) (ops : List (BOp α)) (hops : XHSane t E ops)
    (hpop : E.trivial = true ∨ popsLast [] ops = false) :
    match hlife E comp eq (strict (t.denote sys).ending) b ops w with
    | .ok o w' => (∀ p, o p = none) ∧ (∀ x, ¬ (b ≤ x ∧ x < b + t.size) → w'.heap.b x = w.heap.b x) ∧
        (∀ x, b ≤ x → x < b + t.size → (w'.heap.b x).isSome = true) ∧ ∀ a, w'.heap.t a = w.heap.t a
    | .oom w' => w'.failed = true
    | .ub => False := by
  rw [← t.objSize_eq sys] at hs ⊢
  have := heap_lifetimes_of (ending_sound (t.sound sys hwf)) b w hs E hE comp eq ops
    ⟨t.fits_below hwf hE.pos hops.1 sys.plat, fun ⟨o, ho, he⟩ => by rw [hops.2 o ho] at he; cases he⟩ hpop
  cases hp : hlife E comp eq (strict (t.denote sys).ending) b ops w <;> (rw [hp] at this; exact this)

/-! ### The hypotheses are met -/

example : xarrTy.WF ∧ XVSane xarrTy 2 [.newRange [[1, 2], [3, 4]], .reserve 0 4, .read 0 1, .reserve 0 40] :=
  ⟨⟨⟨trivial, by decide, by decide⟩, trivial, rfl⟩, by decide, by decide⟩

/-- the first program runs to its end; the second asks for four blocks, the arena has three: it is ended -/
example : (vplay 2 (xarrTy.denote (demoSys .direct)).ending 4096 [.newRange [[1, 2], [3, 4]], .reserve 0 4, .read 0 1] (demoWorld xarrTy.size)).test
      (fun c _ => c.seen == [[3, 4]]) = true ∧
    (match vplay 2 (xarrTy.denote (demoSys .direct)).ending 4096 (List.replicate 4 (.newFill 4 [1, 2])) (demoWorld xarrTy.size) with
      | .oom _ => true
      | _ => false) = true := by
  constructor <;> decide +kernel

example : xarrTy.WF ∧ XHSane xarrTy demoElt [.newList [3, 1, 2], .insert 0 7, .pop 0, .reserve 0 9, .find 0 2, .clear 0] :=
  ⟨⟨⟨trivial, by decide, by decide⟩, trivial, rfl⟩, by decide, by decide⟩

end KTL
