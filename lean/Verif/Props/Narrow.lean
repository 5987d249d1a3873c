import Verif.Alloc.Narrow
import Verif.Props.Memory
import Verif.Props.Vector
import Verif.Props.Asserts

/- C92: allocators of the user with a `size_type` smaller than `size_t`, and the library's allocators on top of them. -/
namespace KTL

/-- Requests covered: not empty, and expressible, with all headers and guards, in the smallest `size_type` of the composition. -/
def NSane (t : NTy) (ops : List Op) : Prop := Requests (fun n => 0 < n ∧ n + t.margin < t.least) ops

theorem NSane.fits {t : NTy} {ops} (sys : Sys) (h : NSane t ops) (hw : t.WF) : Requests (t.fits sys.plat) ops :=
  fun n hn => ⟨(h n hn).1, t.fits_of_margin sys.plat hw n (h n hn).2.1 (h n hn).2.2⟩

/-- The same for vectors; none of the operations asks for an empty block. -/
def NVSane (t : NTy) (sz : Nat) (ops : List VOp) : Prop :=
  sz * (2 * weights ops) + t.margin < t.least ∧ ∀ o ∈ ops, o.mayBeEmpty = false

theorem NVSane.fits {t : NTy} {sz : Nat} {ops : List VOp} (h : NVSane t sz ops) (hwf : t.WF) (hz : 0 < sz) (plat : Plat) :
    (∀ n, 0 < n → n ≤ 2 * weights ops → sz * n < W64 ∧ t.fits plat (sz * n)) ∧ ((∃ o ∈ ops, o.mayBeEmpty = true) → t.fits plat 0) := by
  have h1 := h.1
  have h2 := t.least_le
  have h3 := t.width_le
  refine ⟨fun n hn hle => ?_, fun ⟨o, ho, he⟩ => ?_⟩
  · have hm : sz * n ≤ sz * (2 * weights ops) := Nat.mul_le_mul_left _ hle
    have hp : 0 < sz * n := Nat.mul_pos hz hn
    exact ⟨by omega, t.fits_of_margin plat hwf _ hp (by omega)⟩
  · rw [h.2 o ho] at he; cases he

/-- **C92, memory safety.** Compositions of the library's allocators over allocators of the user with any `size_type`, driven by any
contract-abiding history whose requests fit in the smallest `size_type`: no undefined behaviour, and memory outside the allocator that
was allocated before is not touched. Partial: without the bound on the requests the claim is false (below), and `cascading` needs an
allocator that has fewer blocks than its `size_type` can count. -/
theorem C92_narrow_safe_partial (sys : Sys) (t : NTy) (hwf : t.WF) (b : Nat) (w : World)
    (hs : Storage w b t.size) (ops : List Op) (hops : NSane t ops) :
    match play sys (t.denote sys) b ops w with
    | .ok _ w' => ∀ x v, ¬ (b ≤ x ∧ x < b + t.size) → w.heap.b x = some v → w'.heap.b x = some v
    | .oom w' => w'.failed = true
    | .ub => False := by
  rw [← t.objSize_eq sys] at hs ⊢
  have := safe_of sys (t.sound sys hwf) b w hs ops (hops.fits sys hwf)
  cases hp : play sys (t.denote sys) b ops w <;> (rw [hp] at this; exact this)

/-- **C92, blocks.** The live blocks are disjoint from each other, from the blocks of others and from memory allocated before; they are
aligned to 16; and they hold what the client wrote. -/
theorem C92_narrow_blocks_partial (sys : Sys) (t : NTy) (hwf : t.WF) (b : Nat) (w : World)
    (hs : Storage w b t.size) (ops : List Op) (hops : NSane t ops) (c : Client (t.denote sys)) (w' : World)
    (hrun : play sys (t.denote sys) b ops w = .ok c w') :
    (c.live ++ c.foreign).Pairwise
        (fun a d => ∀ x, ¬ ((a.1 ≤ x ∧ x < a.1 + a.2.length) ∧ (d.1 ≤ x ∧ x < d.1 + d.2.length))) ∧
    (∀ a ∈ c.live, ∀ x, a.1 ≤ x → x < a.1 + a.2.length → ¬ (b ≤ x ∧ x < b + t.size) → w.heap.b x = none) ∧
    (∀ a ∈ c.live, a.1 ≠ 0 ∧ a.1 % 16 = 0 ∧ a.1 + a.2.length < 2 ^ 64) ∧
    ∀ a ∈ c.live ++ c.foreign, ∀ i (hi : i < a.2.length), w'.heap.b (a.1 + i) = some a.2[i] := by
  rw [← t.objSize_eq sys] at hs ⊢
  have h := disjoint_of sys (t.sound sys hwf) b w hs ops (hops.fits sys hwf) c w' hrun
  exact ⟨h.1, h.2, aligned_of sys (t.sound sys hwf) b w hs ops (hops.fits sys hwf) c w' hrun,
    contents_of sys (t.sound sys hwf) b w hs ops (hops.fits sys hwf) c w' hrun⟩

/-- **C92, destruction** returns everything, as in C05. -/
theorem C92_narrow_returns_partial (sys : Sys) (t : NTy) (hwf : t.WF) (b : Nat) (w : World)
    (hs : Storage w b t.size) (ops : List Op) (hops : NSane t ops) (c : Client (t.denote sys)) (w' : World)
    (hrun : play sys (t.denote sys) b ops w = .ok c w') (hempty : c.live = []) :
    match (t.denote sys).fini c.st w' with
    | .ok _ w'' =>
      (∀ x, b ≤ x → x < b + t.size → (w''.heap.b x).isSome = true) ∧
      (∀ x, (∀ f ∈ c.foreign, x ≠ f.1) → w''.heap.t x = w.heap.t x) ∧
      (∀ x, ¬ (b ≤ x ∧ x < b + t.size) → (∀ f ∈ c.foreign, ¬ (f.1 ≤ x ∧ x < f.1 + f.2.length)) →
        w''.heap.b x = w.heap.b x)
    | .oom w'' => w''.failed = true
    | .ub => False := by
  rw [← t.objSize_eq sys] at hs ⊢
  have := returns_of sys (t.sound sys hwf) b w hs ops (hops.fits sys hwf) c w' hrun hempty
  cases hp : (t.denote sys).fini c.st w' <;> (rw [hp] at this; exact this)

/-- **C92, `owns`** is exact, as in C06. -/
theorem C92_narrow_owns_partial (sys : Sys) (t : NTy) (hwf : t.WF) (b : Nat) (w : World)
    (hs : Storage w b t.size) (ops : List Op) (hops : NSane t ops) (c : Client (t.denote sys)) (w' : World)
    (hrun : play sys (t.denote sys) b ops w = .ok c w')
    (owns : (t.denote sys).St → Nat → Bool) (ho : (t.denote sys).owns = some owns) (x : Nat) :
    ((∃ a ∈ c.live, a.1 ≤ x ∧ x < a.1 + a.2.length) → owns c.st x = true) ∧
    (x ≠ 0 → (∃ a ∈ c.foreign, a.1 ≤ x ∧ x < a.1 + a.2.length) → owns c.st x = false) ∧
    (x ≠ 0 → ¬ (b ≤ x ∧ x < b + t.size) → (w.heap.b x).isSome = true → owns c.st x = false) := by
  rw [← t.objSize_eq sys] at hs ⊢
  exact owns_of sys (t.sound sys hwf) b w hs ops (hops.fits sys hwf) c w' hrun owns ho x

/-- **C92, vectors.** Programs with vectors over such an allocator see mathematical sequences, as in C42. -/
theorem C92_narrow_vector_partial (sys : Sys) (t : NTy) (hwf : t.WF) (b : Nat) (w : World) (hs : Storage w b t.size)
    (sz : Nat) (hz : 0 < sz) (ops : List VOp) (hops : NVSane t sz ops) :
    match vplay sz (t.denote sys) b ops w with
    | .ok c w' => ∃ S, Seqs.Run sz ⟨[], []⟩ ops S ∧ c.seen = S.seen ∧ c.vs.length = S.xs.length ∧
        ∀ (i : Nat) (v : Vec) (xs : List (List UInt8)), c.vs[i]? = some v → S.xs[i]? = some xs → v.size sz = xs.length ∧
          ∀ (k : Nat) (e : List UInt8), xs[k]? = some e → e.length = sz ∧ ∀ j, j < sz → w'.heap.b (v.beg + k * sz + j) = e[j]?
    | .oom w' => w'.failed = true
    | .ub => False := by
  rw [← t.objSize_eq sys] at hs
  have := vector_is_seq_of (t.sound sys hwf) b w hs sz hz ops (hops.fits hwf hz sys.plat)
  cases hp : vplay sz (t.denote sys) b ops w <;> (rw [hp] at this; exact this)

/-- **C92, vectors,** blocks are returned with the sizes they were allocated with, and nothing is leaked, as in C43. -/
theorem C92_narrow_vector_returns_partial (sys : Sys) (t : NTy) (hwf : t.WF) (b : Nat) (w : World) (hs : Storage w b t.size)
    (sz : Nat) (hz : 0 < sz) (ops : List VOp) (hops : NVSane t sz ops) :
    match vlife sz (strict (t.denote sys)) b ops w with
    | .ok _ w' => (∀ x, ¬ (b ≤ x ∧ x < b + t.size) → w'.heap.b x = w.heap.b x) ∧
        (∀ x, b ≤ x → x < b + t.size → (w'.heap.b x).isSome = true) ∧ ∀ a, w'.heap.t a = w.heap.t a
    | .oom w' => w'.failed = true
    | .ub => False := by
  rw [← t.objSize_eq sys] at hs ⊢
  have := vector_no_leak_of (t.sound sys hwf) b w hs sz hz ops (hops.fits hwf hz sys.plat)
  cases hp : vlife sz (strict (t.denote sys)) b ops w <;> (rw [hp] at this; exact this)

/-! ### Concrete users -/

/-- The contract for fewer sizes. Proof helper, not code. -/
def Sound.only {A : Allocator} {fA : Nat → Prop} (hA : Sound A fA) (fC : Nat → Prop) (hf : ∀ n, fC n → fA n) : Sound A fC :=
  hA.restrict (fun _ => True) fC hf (fun _ _ _ _ _ => trivial) (fun _ _ _ _ _ _ _ _ _ _ _ _ => trivial) (fun _ _ _ _ _ _ _ _ => trivial)
    (fun _ _ _ _ _ _ _ _ _ => trivial) (fun _ _ _ _ _ _ _ _ _ => trivial)

/-- A user's arena of `S` bytes with a `size_type` of `W` values that behaves as `linear_allocator<S>`. Example, not code. -/
def arenaUser (W S : Nat) (two : 2 ≤ W) (dvd : W ∣ W64) (h : W + 15 + S < W64) : User where
  W := W
  two := two
  dvd := dvd
  A := linear S
  sound := (linear_sound S).only _ (fun n hn => by unfold Linear.Fits; omega)
  cap := some S
  capped := by
    rintro k ⟨⟩ b s L h ⟨⟨_, hL⟩, hi⟩
    have h1 := NTy.linear_capped (L := L) (fun c hc => by have := (hL c hc).1; omega)
    have h2 := hi.2.1.count_le
    have h3 := hi.2.1.free_hi
    omega
  max f hf := by cases hf; exact ⟨S, fun _ => rfl⟩

/-- A user's allocator with a `size_type` of `W` values that calls `malloc`. Example, not code. -/
def heapUser (sys : Sys) (W : Nat) (two : 2 ≤ W) (dvd : W ∣ W64) (h : W + 16 ≤ W64) : User where
  W := W
  two := two
  dvd := dvd
  A := mallocator sys
  sound := (mallocator_sound sys).only _ (fun n hn => by cases sys; rename_i p _ _; cases p <;> simp only [MallocFits] <;> omega)
  cap := none
  capped := by rintro k ⟨⟩
  max f hf := by cases hf

/-- `uint32_t` arenas -/
def arena32 (S : Nat) (h : S < 2 ^ 32) : User := arenaUser (2 ^ 32) S (by decide) (by decide) (by omega)
/-- `uint8_t` arenas -/
def arena8 (S : Nat) (h : S < 2 ^ 32) : User := arenaUser (2 ^ 8) S (by decide) (by decide) (by omega)

/-- Most of the templates over two users with 32 bits. Example, not code. -/
def demoNTy : NTy :=
  .overflow (.fallback (.segragator 64 (.freelist 0 64 (.user (arena32 1024 (by decide)))) (.threaded (.linear 512)))
    (.shared (.cascading (.fallback (.user (arena32 256 (by decide))) (.reference (.linear 128))))))

example : demoNTy.WF := by
  simp only [demoNTy, NTy.WF, NTy.hasOwns, NTy.safeMax, NTy.hasMax, NTy.size, NTy.cap, NTy.width, NTy.margin, NTy.least, arena32, arenaUser, linear]
  refine ⟨⟨⟨trivial, by decide, by decide⟩, trivial⟩, ⟨⟨⟨trivial, trivial, rfl⟩, rfl, rfl, by decide, 384, rfl, by decide⟩, by decide⟩, rfl⟩
example : Storage (demoWorld demoNTy.size) 4096 demoNTy.size := demoStorage _ (by decide)
example : NSane demoNTy demoOps := by
  intro n hn
  simp [demoOps] at hn
  rcases hn with rfl | rfl | rfl | rfl <;> decide
example : ((play (demoSys .manual) (demoNTy.denote (demoSys .manual)) 4096 demoOps) (demoWorld demoNTy.size)).test
    (fun c _ => c.live.map (fun a => a.2.length) == [16, 32, 8] && c.live.any (fun a => a.2[3]? == some 7)) = true := by
  decide +kernel
example : NVSane demoNTy 8 [.new, .push 0 [1, 2, 3, 4, 5, 6, 7, 8], .pushRange 0 [[0, 0, 0, 0, 0, 0, 0, 1]], .move 0, .resize 1 1, .clear 1] := by
  refine ⟨by decide, ?_⟩
  intro o ho
  simp only [List.mem_cons, List.not_mem_nil, or_false] at ho
  rcases ho with rfl | rfl | rfl | rfl | rfl | rfl <;> decide

/-! ### Where the claim is false -/

/-- **C92, defect: sizes are truncated.** A request is not refused when it does not fit in `size_type`: over any allocator,
`freelist`, `cascading` and `overflow` serve `allocate(n + k * W)` as `allocate(n)`. A caller who asks an `overflow<user32>` for
`2^32 + 16` bytes gets 16. -/
theorem C92_truncates (sys : Sys) (t : NTy) (ht : (∃ U, t = .user U) ∨ (∃ m M A, t = .freelist m M A) ∨ (∃ A, t = .cascading A) ∨ ∃ A, t = .overflow A)
    (s : (t.denote sys).St) (n k : Nat) (w : World) :
    (t.denote sys).alloc s (n + k * t.width) w = (t.denote sys).alloc s n w := by
  have key : ∀ (A : Allocator) (W : Nat) (s : (narrow W A).St), (narrow W A).alloc s (n + k * W) w = (narrow W A).alloc s n w := by
    intro A W s
    show A.alloc s ((n + k * W) % W) w = A.alloc s (n % W) w
    rw [Nat.add_mul_mod_self_right]
  rcases ht with ⟨U, rfl⟩ | ⟨m, M, A, rfl⟩ | ⟨A, rfl⟩ | ⟨A, rfl⟩
  · exact key _ _ s
  · exact key _ _ s
  · exact key _ _ s
  · exact key _ _ s

/-- A `uint8_t` user over `malloc`. Example, not code. -/
def heap8 : User := heapUser (demoSys .direct) (2 ^ 8) (by decide) (by decide) (by decide)
/-- A `uint32_t` user over `malloc`. Example, not code. -/
def heap32 : User := heapUser (demoSys .direct) (2 ^ 32) (by decide) (by decide) (by decide)

/-- **C92 is false without the bound:** `shared<user8>` (whose `allocate` takes a `size_t`) is asked for 272 bytes and gets 16; the first
use of the others is undefined. -/
theorem C92_truncated_false :
    (NTy.shared (.user heap8)).WF ∧
    ((play (demoSys .direct) ((NTy.shared (.user heap8)).denote (demoSys .direct)) 4096 [.allocate 16]) (demoWorld 64)).isUB = false ∧
    ((play (demoSys .direct) ((NTy.shared (.user heap8)).denote (demoSys .direct)) 4096 [.allocate 272]) (demoWorld 64)).isUB = true := by
  refine ⟨⟨trivial, by decide⟩, by decide +kernel, by decide +kernel⟩

/-- **C92 is false for a vector:** `resize(300)` over the same allocator returns normally; the storage has 44 bytes; writing
the elements in it is undefined. -/
theorem C92_vector_false :
    ((vplay 1 ((NTy.user heap8).denote (demoSys .direct)) 4096 [.new, .resize 0 300, .write 0 43 [7]] (demoWorld 64)).test fun c _ =>
      decide (c.vs.map (fun v => (v.size 1, v.capacity 1)) = [(300, 300)])) = true ∧
    ((vplay 1 ((NTy.user heap8).denote (demoSys .direct)) 4096 [.new, .resize 0 300, .write 0 44 [7]]) (demoWorld 64)).isUB = true := by
  refine ⟨by decide +kernel, by decide +kernel⟩

/-- **C92 is false for `overflow`,** even for requests that fit in `size_type`: `n + 128` wraps, the block is too small for its own guards. -/
theorem C92_overflow_wraps_false :
    2 ^ 32 - 100 < heap32.W ∧
    ((play (demoSys .direct) ((NTy.overflow (.user heap32)).denote (demoSys .direct)) 4096 [.allocate (2 ^ 32 - 100)]) (demoWorld 64)).isUB = true := by
  refine ⟨by decide, by decide +kernel⟩

/-- `cascading` over a `uint8_t` arena with room for 257 small blocks. Example, not code. -/
def manyTy : NTy := .cascading (.user (arena8 4112 (by decide)))
/-- 258 blocks of one byte: 257 in one node, one in the next. Example, not code. -/
def manyOps : List Op := List.replicate 258 (.allocate 1) ++ [.deallocate 5]

/-- whether the bytes from `a` to `a + 2 ^ k - 1` are free. Example, not code. -/
def freeRange (h : Heap) : Nat → Nat → Bool
  | 0, a => (h.b a).isNone
  | k + 1, a => freeRange h k a && freeRange h k (a + 2 ^ k)

theorem freeRange_ok (h : Heap) : ∀ k a, freeRange h k a = true → ∀ i, i < 2 ^ k → h.b (a + i) = none
  | 0, a, hh, i, hi => by
    obtain rfl : i = 0 := by simpa using hi
    simpa [freeRange] using hh
  | k + 1, a, hh, i, hi => by
    simp only [freeRange, Bool.and_eq_true] at hh
    by_cases h1 : i < 2 ^ k
    · exact freeRange_ok h k a hh.1 i h1
    · have := freeRange_ok h k _ hh.2 (i - 2 ^ k) (by rw [Nat.pow_succ] at hi; omega)
      rw [← this]; congr 1; omega

/-- `demoSys` with slots of 8 KiB. Example, not code. -/
def slotSys : Sys where
  plat := .direct
  malloc k h n :=
    let a := 0x100000 + k * 0x10000
    if n ≤ 8192 ∧ k < 0x10000 ∧ h.t a = none ∧ freeRange h 13 a = true then some (a, fun _ => 0) else none
  valid := by
    intro k h n a c hm
    simp only at hm
    split at hm
    · rename_i hc
      simp only [Option.some.injEq, Prod.mk.injEq] at hm
      obtain ⟨rfl, _⟩ := hm
      refine ⟨by omega, ?_, by omega, hc.2.2.1, fun x h1 h2 => ?_⟩
      · simp only [Plat.mallocAlign]; omega
      · have := freeRange_ok h 13 _ hc.2.2.2 (x - (1048576 + k * 65536)) (by omega)
        rw [← this]; congr 1; omega
    · cases hm

/-- **C92 is false for `cascading`** when a node has more blocks than `size_type` can count: of 257 blocks in a node one is deallocated, the
counter reaches zero, the node is deleted with 256 blocks in use, and the next access to one of them is undefined. -/
theorem C92_counter_false :
    NSane manyTy (manyOps ++ [.write 7 0 1]) ∧
    ((play slotSys (manyTy.denote slotSys) 4096 manyOps (demoWorld 64)).test fun c _ => c.live.length == 257) = true ∧
    ((play slotSys (manyTy.denote slotSys) 4096 (manyOps ++ [.write 7 0 1])) (demoWorld 64)).isUB = true := by
  refine ⟨fun n hn => ?_, by decide +kernel, by decide +kernel⟩
  simp only [manyOps, List.mem_append, List.mem_replicate, List.mem_cons, List.not_mem_nil, or_false, reduceCtorEq,
    Op.allocate.injEq] at hn
  obtain ⟨_, rfl⟩ := hn
  decide

end KTL
