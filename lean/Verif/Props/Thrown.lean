import Verif.Alloc.Thrown
import Verif.Props.Narrow
import Verif.Props.Reports

/- C93: exceptions of allocators written by users, and of the constructors of elements, pass through the library's allocators. -/
namespace KTL

/-- One step of a client: as `Op`, or `construct` for an object whose constructor throws. -/
inductive ThrowOp where
  | op (o : Op)
  | constructThrows (i off : Nat)
  deriving DecidableEq

/-- The client's view, as `Client`, the sizes of the requests that ended with an exception, and the number of `construct` calls that did. -/
structure ThrowClient (X : XAlloc) where
  c : Client X.toA
  thrown : List Nat := []
  torn : Nat := 0

/-- Execute one step. An exception of `allocate` is noted and the client goes on. -/
def ThrowClient.step (sys : Sys) {X : XAlloc} (c : ThrowClient X) : ThrowOp → M (ThrowClient X)
  | .op (.allocate n) => do
    let r ← X.alloc c.c.st n
    match r.1 with
    | none => pure { c with c := { c.c with st := r.2 }, thrown := n :: c.thrown }
    | some p =>
      if p = 0 then pure { c with c := { c.c with st := r.2, refused := n :: c.c.refused } }
      else do
        let bs ← M.readBytes p n
        pure { c with c := { c.c with st := r.2, live := (p, bs) :: c.c.live } }
  | .op o => do
    let d ← c.c.step sys o
    pure { c with c := d }
  | .constructThrows i off =>
    match c.c.live[i]? with
    | none => pure c
    | some b =>
      match X.construct with
      | none => pure c
      | some f => do
        let s ← f c.c.st (b.1 + off) true
        pure { c with c := { c.c with st := s }, torn := c.torn + 1 }

/-- Execute a list of steps. -/
def ThrowClient.run (sys : Sys) {X : XAlloc} (c : ThrowClient X) : List ThrowOp → M (ThrowClient X)
  | [] => pure c
  | o :: os => do
    let c' ← c.step sys o
    c'.run sys os

/-- Construct an allocator object at address `b` and use it; `none` if the constructor throws. -/
def throwPlay (sys : Sys) (X : XAlloc) (b : Nat) (ops : List ThrowOp) : M (Option (ThrowClient X)) := do
  match ← X.init b with
  | none => pure none
  | some s => do
    let c ← ThrowClient.run sys { c := { st := s, live := [], foreign := [] } } ops
    pure (some c)

/-- The whole life of an allocator object. -/
def throwLife (sys : Sys) (X : XAlloc) (b : Nat) (ops : List ThrowOp) : M (Option (ThrowClient X)) := do
  match ← throwPlay sys X b ops with
  | none => pure none
  | some c => do
    X.fini c.c.st
    pure (some c)

/-- Requests covered: not empty, and small enough for all the headers and guards. -/
def ThrowSane (t : XTy) (ops : List ThrowOp) : Prop := ∀ n, ThrowOp.op (.allocate n) ∈ ops → 0 < n ∧ n + t.margin < 2 ^ 64

theorem ThrowClient.step_spec (sys : Sys) {X : XAlloc} {f : Nat → Prop} (hX : XSound X f) (b : Nat) (c : ThrowClient X) (o : ThrowOp)
    (ho : ∀ n, o = .op (.allocate n) → n < W64 ∧ f n) :
    Triple (ClientInv hX.sound b c.c) (c.step sys o) (fun c' => ClientInv hX.sound b c'.c) := by
  cases o with
  | op o =>
    by_cases h : ∃ n, o = .allocate n
    · obtain ⟨n, rfl⟩ := h
      have h1 := KTL.step_spec sys hX.sound b c.c (.allocate n) (by rintro m ⟨⟩; exact ho n rfl)
      simp only [Client.step, XAlloc.toA, bind_assoc, pure_bind] at h1
      intro w s hf hd he hp
      have h2 := h1 w s hf hd he hp
      simp only [ThrowClient.step, M.bind_apply] at h2 ⊢
      cases ha : X.alloc c.c.st n w with
      | ub => rw [ha] at h2; exact h2
      | oom w' => rw [ha] at h2; exact h2
      | ok r w' =>
        rw [ha] at h2
        obtain ⟨r1, r2⟩ := r
        cases r1 with
        | none => exact h2
        | some p =>
          simp only [Option.getD_some] at h2 ⊢
          by_cases hz : p = 0
          · simp only [hz, if_true] at h2 ⊢
            exact h2
          · simp only [hz, if_false, M.bind_apply] at h2 ⊢
            cases hr : M.readBytes p n w' with
            | ub => rw [hr] at h2; exact h2
            | oom w'' => rw [hr] at h2; exact h2
            | ok bs w'' => rw [hr] at h2; exact h2
    · have e : c.step sys (.op o) = (do let d ← c.c.step sys o; pure { c with c := d }) := by
        cases o <;> first | rfl | exact absurd ⟨_, rfl⟩ h
      rw [e]
      exact Triple.bind (KTL.step_spec sys hX.sound b c.c o (fun n hn => absurd ⟨n, hn⟩ h)) fun d => Triple.pure _ fun _ hh => hh
  | constructThrows i off =>
    simp only [ThrowClient.step]
    split
    · exact Triple.pure _ fun _ hh => hh
    · split
      · exact Triple.pure _ fun _ hh => hh
      · rename_i g hg
        exact Triple.bind ((hX.construct_spec g hg b c.c.st _ _ true).frame _) fun s => Triple.pure _ fun _ hh => hh

theorem ThrowClient.run_spec (sys : Sys) {X : XAlloc} {f : Nat → Prop} (hX : XSound X f) (b : Nat) (ops : List ThrowOp) (c : ThrowClient X)
    (ho : ∀ n, ThrowOp.op (.allocate n) ∈ ops → n < W64 ∧ f n) :
    Triple (ClientInv hX.sound b c.c) (c.run sys ops) (fun c' => ClientInv hX.sound b c'.c) := by
  induction ops generalizing c with
  | nil => exact Triple.pure _ fun _ hh => hh
  | cons o os ih =>
    refine Triple.bind (ThrowClient.step_spec sys hX b c o (fun n hn => ho n (by rw [hn]; simp))) fun c' => ?_
    exact ih c' fun n hn => ho n (List.mem_cons_of_mem _ hn)

theorem ThrowSane.fits {t : XTy} {ops} (h : ThrowSane t ops) (hw : t.WF) (plat : Plat) :
    ∀ n, ThrowOp.op (.allocate n) ∈ ops → n < W64 ∧ t.fits plat n :=
  fun n hn => ⟨by have := (h n hn).2; omega, t.fits_of_margin plat hw n (h n hn).1 (h n hn).2⟩

/-- what holds after any history (helper) -/
theorem thistory_of (sys : Sys) {X : XAlloc} {f : Nat → Prop} (hX : XSound X f) (b : Nat) (w : World) (hs : Storage w b X.objSize)
    (ops : List ThrowOp) (ho : ∀ n, ThrowOp.op (.allocate n) ∈ ops → n < W64 ∧ f n) :
    match throwPlay sys X b ops w with
    | .ok (some c) w' => After hX.sound b w c.c w'
    | .ok none w' => (∀ x, ¬ (b ≤ x ∧ x < b + X.objSize) → w'.heap.b x = w.heap.b x) ∧
        (∀ x, b ≤ x → x < b + X.objSize → (w'.heap.b x).isSome = true) ∧ ∀ a, w'.heap.t a = w.heap.t a
    | .oom w' => w'.failed = true
    | .ub => False := by
  obtain ⟨h0, hf, hd, he, hb, hfb, hft⟩ := storage_split hs
  have key : Triple (bytes b X.objSize) (throwPlay sys X b ops)
      (ended (fun c => ClientInv hX.sound b c.c) (bytes b X.objSize)) := by
    refine Triple.bind (hX.init_spec b hs.1 hs.2.1 hs.2.2.1) fun o => ?_
    cases o with
    | none => exact Triple.pure _ fun _ hh => hh
    | some s =>
      refine Triple.bind ((ThrowClient.run_spec sys hX b ops _ ho).pre ?_) fun c => Triple.pure _ fun _ hh => hh
      intro h hh
      simpa [ClientInv, blocksV, foreignV, ended] using hh
  have := key w h0 hf hd he hb
  cases hp : throwPlay sys X b ops w with
  | ok o w' =>
    rw [hp] at this
    obtain ⟨⟨h', hd', he', hi⟩, hna⟩ := this
    cases o with
    | some c => exact ⟨h', hf, hd', he', hi, hfb, hft, hna⟩
    | none =>
      have hi' : bytes b X.objSize h' := hi
      refine ⟨fun x hx => ?_, fun x h1 h2 => ?_, fun a => ?_⟩
      · have := hi'.2 x
        replace this : (h'.b x).isSome = true ↔ (b ≤ x ∧ x < b + X.objSize) := this
        rw [← this] at hx
        have hn : h'.b x = none := by simpa using hx
        have hf' := hfb x
        rw [this] at hx
        rw [if_neg hx] at hf'
        rw [he', Heap.add_b, hn, ← hf']; rfl
      · rw [he']
        exact heap_left_isSome (bytes_isSome hi' ⟨h1, h2⟩)
      · rw [he', ← hft]
        simp [hi'.1 a]
  | oom w' => rw [hp] at this; exact this
  | ub => rw [hp] at this; exact this

/-- **C93, safety.** Allocators composed of the library's and of any users' that may throw from their constructor and from `allocate`,
driven by any history with exceptions, also of the constructors of elements: no undefined behaviour, memory outside the allocator is not
touched; and if the constructor throws, nothing is left of the object. Partial: an allocator below `cascading` or `shared` must not throw
from its constructor (below, the memory it was to live in is lost). -/
theorem C93_thrown_safe_partial (sys : Sys) (t : XTy) (hwf : t.WF) (b : Nat) (w : World)
    (hs : Storage w b t.size) (ops : List ThrowOp) (hops : ThrowSane t ops) :
    match throwPlay sys (t.denote sys) b ops w with
    | .ok (some _) w' => ∀ x v, ¬ (b ≤ x ∧ x < b + t.size) → w.heap.b x = some v → w'.heap.b x = some v
    | .ok none w' => (∀ x, ¬ (b ≤ x ∧ x < b + t.size) → w'.heap.b x = w.heap.b x) ∧
        (∀ x, b ≤ x → x < b + t.size → (w'.heap.b x).isSome = true) ∧ ∀ a, w'.heap.t a = w.heap.t a
    | .oom w' => w'.failed = true
    | .ub => False := by
  rw [← t.objSize_eq sys] at hs ⊢
  have := thistory_of sys (t.sound sys hwf) b w hs ops (hops.fits hwf sys.plat)
  cases hp : throwPlay sys (t.denote sys) b ops w with
  | ok o w' =>
    rw [hp] at this
    cases o with
    | none => exact this
    | some c => exact After.untouched this
  | oom w' => rw [hp] at this; exact this
  | ub => rw [hp] at this; exact this

/-- **C93, blocks.** After any history with exceptions the live blocks — those handed out before, between and after the exceptions — are
disjoint from each other, from the blocks of others and from memory allocated before, they are aligned to 16, and they hold what the
client wrote. -/
theorem C93_thrown_blocks_partial (sys : Sys) (t : XTy) (hwf : t.WF) (b : Nat) (w : World)
    (hs : Storage w b t.size) (ops : List ThrowOp) (hops : ThrowSane t ops) (c : ThrowClient (t.denote sys)) (w' : World)
    (hrun : throwPlay sys (t.denote sys) b ops w = .ok (some c) w') :
    (c.c.live ++ c.c.foreign).Pairwise
        (fun a d => ∀ x, ¬ ((a.1 ≤ x ∧ x < a.1 + a.2.length) ∧ (d.1 ≤ x ∧ x < d.1 + d.2.length))) ∧
    (∀ a ∈ c.c.live, ∀ x, a.1 ≤ x → x < a.1 + a.2.length → ¬ (b ≤ x ∧ x < b + t.size) → w.heap.b x = none) ∧
    (∀ a ∈ c.c.live, a.1 ≠ 0 ∧ a.1 % 16 = 0 ∧ a.1 + a.2.length < 2 ^ 64) ∧
    ∀ a ∈ c.c.live ++ c.c.foreign, ∀ i (hi : i < a.2.length), w'.heap.b (a.1 + i) = some a.2[i] := by
  rw [← t.objSize_eq sys] at hs ⊢
  have := thistory_of sys (t.sound sys hwf) b w hs ops (hops.fits hwf sys.plat)
  rw [hrun] at this
  exact ⟨(After.disjoint this).1, (After.disjoint this).2, After.aligned this, After.contents this⟩

/-- **C93, destruction.** Whatever was thrown before: once the client has returned its blocks, the destructor gives back everything. -/
theorem C93_thrown_returns_partial (sys : Sys) (t : XTy) (hwf : t.WF) (b : Nat) (w : World)
    (hs : Storage w b t.size) (ops : List ThrowOp) (hops : ThrowSane t ops) (c : ThrowClient (t.denote sys)) (w' : World)
    (hrun : throwPlay sys (t.denote sys) b ops w = .ok (some c) w') (hempty : c.c.live = []) :
    match (t.denote sys).fini c.c.st w' with
    | .ok _ w'' =>
      (∀ x, b ≤ x → x < b + t.size → (w''.heap.b x).isSome = true) ∧
      (∀ x, (∀ f ∈ c.c.foreign, x ≠ f.1) → w''.heap.t x = w.heap.t x) ∧
      (∀ x, ¬ (b ≤ x ∧ x < b + t.size) → (∀ f ∈ c.c.foreign, ¬ (f.1 ≤ x ∧ x < f.1 + f.2.length)) →
        w''.heap.b x = w.heap.b x)
    | .oom w'' => w''.failed = true
    | .ub => False := by
  rw [← t.objSize_eq sys] at hs ⊢
  have := thistory_of sys (t.sound sys hwf) b w hs ops (hops.fits hwf sys.plat)
  rw [hrun] at this
  obtain ⟨h, hf, hd, he, hI, hfb, hft, _⟩ := this
  have := fini_returns_of sys (t.sound sys hwf).sound b w w' c.c h hf hd he hI hfb hft hempty
  cases hp : (t.denote sys).fini c.c.st w' with
  | ok u w'' => rw [show (t.denote sys).toA.fini c.c.st w' = _ from hp] at this; exact this
  | oom w'' => rw [show (t.denote sys).toA.fini c.c.st w' = _ from hp] at this; exact this
  | ub => rw [show (t.denote sys).toA.fini c.c.st w' = _ from hp] at this; exact this

/-- **C93, `owns`** is exact after exceptions too, as in C06. -/
theorem C93_thrown_owns_partial (sys : Sys) (t : XTy) (hwf : t.WF) (b : Nat) (w : World)
    (hs : Storage w b t.size) (ops : List ThrowOp) (hops : ThrowSane t ops) (c : ThrowClient (t.denote sys)) (w' : World)
    (hrun : throwPlay sys (t.denote sys) b ops w = .ok (some c) w')
    (owns : (t.denote sys).St → Nat → Bool) (ho : (t.denote sys).owns = some owns) (x : Nat) :
    ((∃ a ∈ c.c.live, a.1 ≤ x ∧ x < a.1 + a.2.length) → owns c.c.st x = true) ∧
    (x ≠ 0 → (∃ a ∈ c.c.foreign, a.1 ≤ x ∧ x < a.1 + a.2.length) → owns c.c.st x = false) ∧
    (x ≠ 0 → ¬ (b ≤ x ∧ x < b + t.size) → (w.heap.b x).isSome = true → owns c.c.st x = false) := by
  rw [← t.objSize_eq sys] at hs ⊢
  have := thistory_of sys (t.sound sys hwf) b w hs ops (hops.fits hwf sys.plat)
  rw [hrun] at this
  exact After.owns this owns ho x

/-! ### Concrete users -/

/-- A user's allocator that behaves as `A` for up to `B` bytes, and throws instead of returning null. Example, not code. -/
def stern (A : Allocator) (B : Nat) : XAlloc :=
  { A.toX with
    alloc := fun s n =>
      if n ≤ B then do
        let r ← A.alloc s n
        if r.1 = 0 then pure (none, r.2) else pure (some r.1, r.2)
      else pure (none, s) }

/-- The same with a constructor that throws. Example, not code. -/
def broken (A : Allocator) (B : Nat) : XAlloc := { stern A B with init := fun _ => pure none }

theorem stern_alloc {A : Allocator} {f : Nat → Prop} (hA : Sound A f) (B : Nat) (b : Nat) (s : A.St) (L : List (Nat × Nat)) (n : Nat)
    (hf : n ≤ B → f n) (hn : n < W64) :
    Triple (hA.Inv b s L) ((stern A B).toA.alloc s n) (fun r h => (r.1 = 0 ∧ hA.Inv b r.2 L h) ∨
      (Good r.1 n ∧ (hA.Inv b r.2 ((r.1, n) :: L) ∗ bytes r.1 n) h)) := by
  refine Triple.remap ?_
  simp only [stern]
  split
  · rename_i hle
    refine Triple.bind (hA.alloc_spec b s L n (hf hle) hn) fun r => ?_
    split
    · rename_i h0
      refine Triple.pure _ fun h hh => ?_
      rcases hh with hh | hh
      · exact .inl ⟨rfl, hh.2⟩
      · exact absurd h0 hh.1.1
    · exact Triple.pure _ fun h hh => hh
  · exact Triple.pure _ fun h hh => .inl ⟨rfl, hh⟩

/-- The contract for more sizes, by an `allocate` that refuses them. Proof helper, not code. -/
def Sound.widen {A : Allocator} {f g : Nat → Prop} (hA : Sound A f) (h : ∀ n, f n → g n)
    (ha : ∀ b s L n, g n → n < W64 → Triple (hA.Inv b s L) (A.alloc s n) (fun r h => (r.1 = 0 ∧ hA.Inv b r.2 L h) ∨
      (Good r.1 n ∧ (hA.Inv b r.2 ((r.1, n) :: L) ∗ bytes r.1 n) h))) : Sound A g where
  Inv := hA.Inv
  objAlign := hA.objAlign
  perm := hA.perm
  init_spec := hA.init_spec
  alloc_spec := ha
  dealloc_local := hA.dealloc_local
  live_good := fun hI hm => ⟨(hA.live_good hI hm).1, h _ (hA.live_good hI hm).2⟩
  live_max := hA.live_max
  owns_sound := hA.owns_sound
  owns_complete := hA.owns_complete
  construct_spec := hA.construct_spec
  destroy_spec := hA.destroy_spec
  fini_spec := hA.fini_spec

/-- Proof helper, not code. -/
def stern_sound {A : Allocator} {f : Nat → Prop} (hA : Sound A f) (B : Nat) (h1 : ∀ n, n ≠ 0 → n ≤ B → f n) (h2 : ∀ n, f n → n ≠ 0) :
    XSound (stern A B) (fun n => n ≠ 0) where
  sound := ((toX_sound hA).sound.with3 (stern A B).toA.init (stern A B).toA.alloc (stern A B).toA.construct
    (fun b h1 h2 h3 => toA_init (X := stern A B) ((toX_sound hA).init_spec b h1 h2 h3))
    (fun b s L n hf hn => stern_alloc hA B b s L n (fun _ => hf) hn)
    (toX_sound hA).sound.construct_spec).widen h2 (fun b s L n hg hn => stern_alloc hA B b s L n (h1 n hg) hn)
  init_spec := (toX_sound hA).init_spec
  construct_spec := (toX_sound hA).construct_spec

/-- Proof helper, not code. -/
def broken_sound {A : Allocator} {f : Nat → Prop} (hA : Sound A f) (B : Nat) (h1 : ∀ n, n ≠ 0 → n ≤ B → f n) (h2 : ∀ n, f n → n ≠ 0) :
    XSound (broken A B) (fun n => n ≠ 0) where
  sound := (stern_sound hA B h1 h2).sound.with3 (broken A B).toA.init (broken A B).toA.alloc (broken A B).toA.construct
    (fun b _ _ _ => toA_init (X := broken A B) (R := bytes b A.objSize) (Triple.pure _ fun _ hh => hh))
    (stern_sound hA B h1 h2).sound.alloc_spec (stern_sound hA B h1 h2).sound.construct_spec
  init_spec := fun b _ _ _ => Triple.pure _ fun _ hh => hh
  construct_spec := (stern_sound hA B h1 h2).construct_spec

/-- An arena of `S` bytes that throws when it is full. Example, not code. -/
def sternArena (S : Nat) (h : S < 2 ^ 62) : XUser where
  X := stern (linear S) S
  sound := stern_sound ((linear_sound S).only (fun n => n ≠ 0 ∧ n ≤ S) (fun n hn => by unfold Linear.Fits; omega)) S
    (fun n h1 h2 => ⟨h1, h2⟩) (fun n hn => hn.1)
  max f hf := by cases hf; exact ⟨S, fun _ => rfl⟩

/-- An allocator that calls `malloc` and throws when there is no memory. Example, not code. -/
def sternHeap (sys : Sys) : XUser where
  X := stern (mallocator sys) (2 ^ 62)
  sound := stern_sound ((mallocator_sound sys).only (fun n => n ≠ 0 ∧ n ≤ 2 ^ 62)
      (fun n hn => by cases sys; rename_i p _ _; cases p <;> simp only [MallocFits] <;> omega)) (2 ^ 62)
    (fun n h1 h2 => ⟨h1, h2⟩) (fun n hn => hn.1)
  max f hf := by cases hf

/-- An arena whose constructor throws. Example, not code. -/
def brokenArena (S : Nat) (h : S < 2 ^ 62) : XUser where
  X := broken (linear S) S
  sound := broken_sound ((linear_sound S).only (fun n => n ≠ 0 ∧ n ≤ S) (fun n hn => by unfold Linear.Fits; omega)) S
    (fun n h1 h2 => ⟨h1, h2⟩) (fun n hn => hn.1)
  max f hf := by cases hf; exact ⟨S, fun _ => rfl⟩

theorem stern_quiet (A : Allocator) (B : Nat) : (stern A B).CtorQuiet :=
  XTy.quiet_post.2 fun _ => Post.bind' fun _ => Post.pure nofun

/-- Most of the templates over users that throw. Example, not code. -/
def throwTy : XTy :=
  .overflow (.fallback (.segragator 256 (.freelist 0 256 (.user (sternArena 512 (by decide)))) (.threaded (.linear 256)))
    (.shared (.cascading (.segragator 300 (.user (sternArena 300 (by decide))) (.reference (.user (sternArena 600 (by decide))))))))

/-- Requests that are served, requests that throw, a constructor that throws, and so on. Example, not code. -/
def throwOps : List ThrowOp :=
  [.op (.allocate 16), .op (.allocate 32), .op (.write 0 3 7), .constructThrows 0 8, .op (.allocate 128), .op (.deallocate 1),
   .op (.allocate 8), .op (.foreign 24), .op (.allocate 5000), .op (.construct 0 0), .op (.destroy 0 0), .op (.deallocate 0),
   .op (.deallocate 0)]

/-- Non-vacuity: the hypotheses hold for a concrete composition and history. -/
example : throwTy.WF ∧ Storage (demoWorld throwTy.size) 4096 throwTy.size ∧ ThrowSane throwTy throwOps := by
  refine ⟨?_, demoStorage _ (by decide), ?_⟩
  · refine ⟨⟨⟨trivial, by decide, by decide⟩, trivial⟩, ⟨⟨⟨trivial, trivial⟩, rfl, rfl, by decide, stern_quiet _ _, stern_quiet _ _⟩, by decide, trivial⟩, rfl⟩
  · intro n hn
    have hm : throwTy.margin < 4000 := by decide
    simp only [throwOps, List.mem_cons, ThrowOp.op.injEq, Op.allocate.injEq, reduceCtorEq, List.not_mem_nil, or_false, false_or] at hn
    omega

/-- the history really meets an exception and a refusal, and goes on after them -/
example : (throwPlay (demoSys .direct) (throwTy.denote (demoSys .direct)) 4096 throwOps (demoWorld throwTy.size)).test (fun o _ => match o with
    | some c => c.thrown == [128] && c.c.refused == [5000] && c.torn == 1 && c.c.live.isEmpty
    | none => false) = true := by
  decide +kernel

/-- Exceptions of constructors are covered too: here the second part of a `fallback` throws. -/
example : (XTy.fallback (.freelist 0 64 (.user (sternArena 128 (by decide)))) (.user (brokenArena 64 (by decide)))).WF :=
  ⟨⟨trivial, by decide, by decide⟩, trivial, rfl⟩

/-! ### What `overflow` reports -/

open Overflow in
theorem xoverflow_step (sys : Sys) (X : XAlloc) (c : ThrowClient (xoverflow X)) (o : ThrowOp)
    (hc : c.c.st.allocs = wrap64 (liveBytes c.c.live + c.c.refused.sum + c.thrown.sum) ∧ c.c.st.constructs = c.c.built + c.torn) :
    Post (c.step sys o) (fun c' =>
      c'.c.st.allocs = wrap64 (liveBytes c'.c.live + c'.c.refused.sum + c'.thrown.sum) ∧ c'.c.st.constructs = c'.c.built + c'.torn) := by
  obtain ⟨h1, h2⟩ := hc
  have hcon : ∀ (s : Overflow.St X.St) (p : Nat) (thr : Bool) f, (xoverflow X).construct = some f →
      Post (f s p thr) (fun s' => s'.allocs = s.allocs ∧ s'.constructs = s.constructs + 1) := by
    intro s p thr f hf
    cases hf
    simp only
    cases X.construct with
    | some f => exact Post.bind' (fun _ => Post.pure ⟨rfl, rfl⟩)
    | none => exact Post.bind' (fun _ => Post.pure ⟨rfl, rfl⟩)
  cases o with
  | constructThrows i off =>
    simp only [ThrowClient.step]
    split
    · exact Post.pure ⟨h1, h2⟩
    · split
      · exact Post.pure ⟨h1, h2⟩
      · rename_i f hf
        refine Post.bind (hcon c.c.st _ true f hf) ?_
        rintro s ⟨e1, e2⟩
        refine Post.pure ⟨by simp only [e1, h1], ?_⟩
        simp only [e2, h2]; push_cast; omega
  | op o =>
    cases o with
    | allocate n =>
      simp only [ThrowClient.step]
      refine Post.bind (R := fun r => r.2.allocs = wrap64 (c.c.st.allocs + n) ∧ r.2.constructs = c.c.st.constructs) ?_ ?_
      · simp only [xoverflow]
        refine Post.bind' (fun r => ?_)
        split
        · exact Post.pure ⟨rfl, rfl⟩
        · split
          · exact Post.pure ⟨rfl, rfl⟩
          · exact Post.bind' (fun _ => Post.bind' (fun _ => Post.pure ⟨rfl, rfl⟩))
      · rintro r ⟨e1, e2⟩
        split
        · refine Post.pure ⟨?_, by simp only [e2, h2]⟩
          simp only [e1, h1, wrap64_add, List.sum_cons]
          congr 1; push_cast; omega
        · split
          · refine Post.pure ⟨?_, by simp only [e2, h2]⟩
            simp only [e1, h1, wrap64_add, List.sum_cons]
            congr 1; push_cast; omega
          · refine Post.bind (R := fun bs => bs.length = n) ?_ ?_
            · have : ∀ (n p : Nat), Post (M.readBytes p n) (fun bs => bs.length = n) := by
                intro n
                induction n with
                | zero => intro p; exact Post.pure rfl
                | succ n ih =>
                  intro p
                  exact Post.bind' (fun x => Post.bind (ih _) (fun bs h => Post.pure (by simp [h])))
              exact this n _
            · intro bs hbs
              refine Post.pure ⟨?_, by simp only [e2, h2]⟩
              simp only [e1, h1, wrap64_add, liveBytes, List.map_cons, List.sum_cons, hbs]
              congr 1; push_cast; omega
    | deallocate i =>
      simp only [ThrowClient.step, Client.step]
      cases hi : c.c.live[i]? with
      | none => exact Post.pure ⟨h1, h2⟩
      | some x =>
        simp only [bind_assoc, pure_bind]
        refine Post.bind (R := fun s => s.allocs = wrap64 (c.c.st.allocs - x.2.length) ∧ s.constructs = c.c.st.constructs) ?_ ?_
        · simp only [xoverflow, overflow]
          split
          · exact Post.bind' (fun _ => Post.bind' (fun _ => Post.bind' (fun _ => Post.bind' (fun _ => Post.pure ⟨rfl, rfl⟩))))
          · exact Post.pure ⟨rfl, rfl⟩
        · rintro s ⟨e1, e2⟩
          refine Post.pure ⟨?_, by simp only [e2, h2]⟩
          have hp := ((perm_eraseIdx hi).map (fun a => a.2.length)).sum_nat
          simp only [e1, h1, wrap64_sub, liveBytes]
          rw [hp, List.map_cons, List.sum_cons]
          congr 1; push_cast; omega
    | write i off v =>
      simp only [ThrowClient.step, Client.step]
      cases hi : c.c.live[i]? with
      | none => exact Post.pure ⟨h1, h2⟩
      | some x =>
        simp only
        split
        · refine Post.bind (R := fun d => d = { c.c with live := c.c.live.set i (x.1, x.2.set off v) }) ?_ ?_
          · exact Post.bind' fun _ => Post.pure rfl
          · rintro d rfl
            refine Post.pure ⟨?_, h2⟩
            have hp := ((perm_eraseIdx hi).map (fun a => a.2.length)).sum_nat
            have hs := ((perm_set (y := (x.1, x.2.set off v)) hi).map (fun a => a.2.length)).sum_nat
            simp only [h1, liveBytes]
            rw [hp, hs]; simp
        · exact Post.pure ⟨h1, h2⟩
    | construct i off =>
      simp only [ThrowClient.step, Client.step]
      cases hi : c.c.live[i]? with
      | none => exact Post.pure ⟨h1, h2⟩
      | some x =>
        simp only [bind_assoc, pure_bind]
        refine Post.bind (R := fun s => s.allocs = c.c.st.allocs ∧ s.constructs = c.c.st.constructs + 1) ?_ ?_
        · exact hcon c.c.st _ false _ rfl
        · rintro s ⟨e1, e2⟩
          refine Post.pure ⟨by simp only [e1, h1], ?_⟩
          simp only [e2, h2]; omega
    | destroy i off =>
      simp only [ThrowClient.step, Client.step]
      cases hi : c.c.live[i]? with
      | none => exact Post.pure ⟨h1, h2⟩
      | some x =>
        simp only [bind_assoc, pure_bind]
        refine Post.bind (R := fun s => s.allocs = c.c.st.allocs ∧ s.constructs = c.c.st.constructs - 1) ?_ ?_
        · exact overflow_destroy_post X.toA c.c.st _
        · rintro s ⟨e1, e2⟩
          refine Post.pure ⟨by simp only [e1, h1], ?_⟩
          simp only [e2, h2]; omega
    | foreign n =>
      simp only [ThrowClient.step, Client.step]
      refine Post.bind (R := fun d => d.st = c.c.st ∧ d.live = c.c.live ∧ d.refused = c.c.refused ∧ d.built = c.c.built) ?_ ?_
      · refine Post.bind' (fun p => ?_)
        split
        · exact Post.pure ⟨rfl, rfl, rfl, rfl⟩
        · exact Post.bind' (fun _ => Post.pure ⟨rfl, rfl, rfl, rfl⟩)
      · rintro d ⟨e1, e2, e3, e4⟩
        exact Post.pure ⟨by simp only [e1, e2, e3, h1], by simp only [e1, e4, h2]⟩

open Overflow in
theorem xoverflow_play (sys : Sys) (X : XAlloc) (b : Nat) (ops : List ThrowOp) :
    Post (throwPlay sys (xoverflow X) b ops) (fun o => ∀ c, o = some c →
      c.c.st.allocs = wrap64 (liveBytes c.c.live + c.c.refused.sum + c.thrown.sum) ∧ c.c.st.constructs = c.c.built + c.torn) := by
  refine Post.bind (R := fun o : Option (Overflow.St X.St) => ∀ s, o = some s → s.allocs = 0 ∧ s.constructs = 0) ?_ ?_
  · simp only [xoverflow]
    refine Post.bind' (fun o => ?_)
    cases o with
    | none => exact Post.pure nofun
    | some a => exact Post.pure (by rintro s ⟨⟩; exact ⟨rfl, rfl⟩)
  · rintro (_ | s) hs
    · exact Post.pure nofun
    · obtain ⟨e1, e2⟩ := hs s rfl
      have : ∀ (ops : List ThrowOp) (c : ThrowClient (xoverflow X)),
          c.c.st.allocs = wrap64 (liveBytes c.c.live + c.c.refused.sum + c.thrown.sum) ∧ c.c.st.constructs = c.c.built + c.torn →
          Post (c.run sys ops) (fun c =>
            c.c.st.allocs = wrap64 (liveBytes c.c.live + c.c.refused.sum + c.thrown.sum) ∧ c.c.st.constructs = c.c.built + c.torn) := by
        intro ops
        induction ops with
        | nil => intro c hc; exact Post.pure hc
        | cons o os ih => intro c hc; exact Post.bind (xoverflow_step sys X c o hc) (fun c' hc' => ih c' hc')
      refine Post.bind (this ops _ ⟨?_, ?_⟩) fun c hc => Post.pure (by rintro d ⟨⟩; exact hc)
      · simp only [e1, liveBytes]; rfl
      · simp only [e2]; rfl

/-- **C93, reports (partial).** `overflow` over any allocator that may throw: after any history the destructor reports the bytes that are
still live, and the difference between the objects constructed and destroyed — *plus the sizes of all requests that were refused or ended
with an exception, and plus the `construct` calls that ended with an exception*, in which no object was created. The full claim (nothing is
reported to a program that frees everything it received and destroys everything it constructed) is false because of these terms, see
below; it holds if they are zero. -/
theorem C93_thrown_reports_partial (sys : Sys) (X : XAlloc) (b : Nat) (ops : List ThrowOp) (w w' : World)
    (c : ThrowClient (xoverflow X)) (hrun : throwPlay sys (xoverflow X) b ops w = .ok (some c) w') :
    (xoverflow X).fini c.c.st w' = X.fini c.c.st.a { w' with
      out := w'.out ++ leakReport (Int.bmod (liveBytes c.c.live + c.c.refused.sum + c.thrown.sum) (2 ^ 64)) ++
        logicReport (c.c.built + c.torn) } := by
  obtain ⟨h1, h2⟩ := xoverflow_play sys X b ops w (some c) w' hrun c rfl
  refine (overflow_fini X.toA c.c.st w').trans ?_
  rw [h1, h2]; rfl

/-! ### Where the claim is false -/

/-- **C93, negation.** The constructor of an allocator below `cascading` throws: `allocate` passes the exception on, the object is
destroyed, and the memory of the node is never given back (`utility/aligned_malloc.h:88-95`). -/
theorem C93_cascading_constructor_false :
    (throwLife (demoSys .direct) ((XTy.cascading (.user (brokenArena 64 (by decide)))).denote (demoSys .direct)) 4096 [.op (.allocate 16)]
      (demoWorld 16)).test (fun o w' => match o with
        | some c => c.thrown == [16] && c.c.live.isEmpty && c.c.foreign.isEmpty && (w'.heap.t 0x100000).isSome
        | none => false) = true ∧ (demoWorld 16).heap.t 0x100000 = none := by
  refine ⟨?_, rfl⟩
  decide +kernel

/-- **C93, negation.** The same for the constructor of `shared`: it throws, and there is no handle whose destructor could give the memory
back. -/
theorem C93_shared_constructor_false :
    (throwLife (demoSys .direct) ((XTy.shared (.user (brokenArena 64 (by decide)))).denote (demoSys .direct)) 4096 [] (demoWorld 16)).test
      (fun o w' => o.isNone && (w'.heap.t 0x100000).isSome) = true ∧ (demoWorld 16).heap.t 0x100000 = none := by
  refine ⟨?_, rfl⟩
  decide +kernel

/-- **C93, negation.** `fallback` does not fall back if the primary allocator reports failure with an exception: the second allocator, which
is empty and could serve the request, is not asked. -/
theorem C93_fallback_false :
    (throwPlay (demoSys .direct) ((XTy.fallback (.user (sternArena 64 (by decide))) (.linear 256)).denote (demoSys .direct)) 4096
      [.op (.allocate 100)] (demoWorld 512)).test (fun o _ => match o with
        | some c => c.thrown == [100] && c.c.live.isEmpty
        | none => false) = true ∧
    (play (demoSys .direct) (linear 256) 4096 [.allocate 100] (demoWorld 512)).test (fun c _ => c.live.length == 1) = true := by
  constructor <;> decide +kernel

/-- **C93, negation.** `cascading` does not grow if its instances report exhaustion with an exception: the first node is full, a new one could
serve the request, and it is not created. -/
theorem C93_cascading_full_false :
    (throwPlay (demoSys .direct) ((XTy.cascading (.user (sternArena 64 (by decide)))).denote (demoSys .direct)) 4096
      [.op (.allocate 48), .op (.allocate 48)] (demoWorld 16)).test (fun o _ => match o with
        | some c => c.thrown == [48] && c.c.live.length == 1
        | none => false) = true ∧
    (play (demoSys .direct) (cascading (demoSys .direct) (linear 64)) 4096 [.allocate 48, .allocate 48] (demoWorld 16)).test
      (fun c _ => c.live.length == 2) = true := by
  constructor <;> decide +kernel

/-- **C93, negation.** A program that received nothing is told by `overflow` that it leaked 16 bytes, and one that destroyed all the objects
there were is told of a missing destructor call. -/
theorem C93_overflow_report_false :
    (throwLife (demoSys .direct) ((XTy.overflow (.user (sternArena 64 (by decide)))).denote (demoSys .direct)) 4096 [.op (.allocate 16)]
      (demoWorld 512)).test (fun o w' => o.isSome && decide (w'.out = [Msg.leak 16])) = true ∧
    (throwLife (demoSys .direct) ((XTy.overflow (.user (sternArena 256 (by decide)))).denote (demoSys .direct)) 4096
      [.op (.allocate 16), .op (.construct 0 0), .constructThrows 0 8, .op (.destroy 0 0), .op (.deallocate 0)] (demoWorld 512)).test
      (fun o w' => o.isSome && decide (w'.out = [Msg.logic 1])) = true := by
  constructor <;> decide +kernel

end KTL
