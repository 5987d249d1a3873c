import Verif.Spec.Any

/- C01–C06: memory safety of every composed allocator under every contract-abiding history. -/
namespace KTL

/-- Requests covered by the theorems: not empty, and so small that no size computation inside the
composed allocator wraps around 2^64. -/
def Sane (t : AllocTy) (ops : List Op) : Prop := Requests (fun n => 0 < n ∧ n + t.margin < W64) ops

theorem Sane.fits {t : AllocTy} {ops} (sys : Sys) (h : Sane t ops) (hw : t.WF) : Requests (t.fits sys.plat) ops :=
  fun n hn => ⟨(h n hn).1, t.fits_of_margin sys.plat hw n (h n hn).2.1 (h n hn).2.2⟩

/-- what holds after any history, in one place (helper) -/
theorem history (sys : Sys) (t : AllocTy) (hwf : t.WF) (b : Nat) (w : World) (hs : Storage w b t.size)
    (ops : List Op) (hops : Requests (t.fits sys.plat) ops) :
    match play sys (t.denote sys) b ops w with
    | .ok c w' => ∃ h hf, Heap.disj h hf ∧ w'.heap = h.add hf ∧ ClientInv (t.sound sys hwf) b c h ∧
        (∀ x, hf.b x = if b ≤ x ∧ x < b + t.size then none else w.heap.b x) ∧ hf.t = w.heap.t ∧ NoAlarm w w'
    | .oom w' => w'.failed = true
    | .ub => False := by
  rw [← t.objSize_eq sys] at hs ⊢
  have := history_of sys (t.sound sys hwf) b w hs ops hops
  cases hp : play sys (t.denote sys) b ops w <;> (rw [hp] at this; exact this)

/-- **C01.** No composed allocator, driven by any contract-abiding history over any behaviour of
malloc, runs into undefined behaviour; the only exception (`oom`) happens after a failed `malloc`
(`aligned_new` does not check). Memory outside the allocator that was allocated before is never
touched. -/
theorem C01_no_undefined_behaviour (sys : Sys) (t : AllocTy) (hwf : t.WF) (b : Nat) (w : World)
    (hs : Storage w b t.size) (ops : List Op) (hops : Sane t ops) :
    match play sys (t.denote sys) b ops w with
    | .ok _ w' => ∀ x v, ¬ (b ≤ x ∧ x < b + t.size) → w.heap.b x = some v → w'.heap.b x = some v
    | .oom w' => w'.failed = true
    | .ub => False := by
  rw [← t.objSize_eq sys] at hs ⊢
  have := safe_of sys (t.sound sys hwf) b w hs ops (hops.fits sys hwf)
  cases hp : play sys (t.denote sys) b ops w <;> (rw [hp] at this; exact this)

/-- **C02.** The live blocks never overlap each other, nor the blocks other parties got from malloc
meanwhile, nor any memory that was allocated before. -/
theorem C02_live_blocks_disjoint (sys : Sys) (t : AllocTy) (hwf : t.WF) (b : Nat) (w : World)
    (hs : Storage w b t.size) (ops : List Op) (hops : Sane t ops) (c : Client (t.denote sys)) (w' : World)
    (hrun : play sys (t.denote sys) b ops w = .ok c w') :
    (c.live ++ c.foreign).Pairwise
        (fun a d => ∀ x, ¬ ((a.1 ≤ x ∧ x < a.1 + a.2.length) ∧ (d.1 ≤ x ∧ x < d.1 + d.2.length))) ∧
    ∀ a ∈ c.live, ∀ x, a.1 ≤ x → x < a.1 + a.2.length → ¬ (b ≤ x ∧ x < b + t.size) → w.heap.b x = none := by
  rw [← t.objSize_eq sys] at hs ⊢
  exact disjoint_of sys (t.sound sys hwf) b w hs ops (hops.fits sys hwf) c w' hrun

/-- **C03.** Every live block is non-null, a multiple of 16, and does not wrap around the address
space. -/
theorem C03_blocks_aligned (sys : Sys) (t : AllocTy) (hwf : t.WF) (b : Nat) (w : World)
    (hs : Storage w b t.size) (ops : List Op) (hops : Sane t ops) (c : Client (t.denote sys)) (w' : World)
    (hrun : play sys (t.denote sys) b ops w = .ok c w') :
    ∀ a ∈ c.live, a.1 ≠ 0 ∧ a.1 % 16 = 0 ∧ a.1 + a.2.length < 2 ^ 64 := by
  rw [← t.objSize_eq sys] at hs
  exact aligned_of sys (t.sound sys hwf) b w hs ops (hops.fits sys hwf) c w' hrun

/-- **C04.** Every live block holds exactly the bytes the client's own record says it should hold
(the bytes seen when it was allocated, updated by the client's own writes); so do the blocks of other
parties. -/
theorem C04_contents_preserved (sys : Sys) (t : AllocTy) (hwf : t.WF) (b : Nat) (w : World)
    (hs : Storage w b t.size) (ops : List Op) (hops : Sane t ops) (c : Client (t.denote sys)) (w' : World)
    (hrun : play sys (t.denote sys) b ops w = .ok c w') :
    ∀ a ∈ c.live ++ c.foreign, ∀ i (hi : i < a.2.length), w'.heap.b (a.1 + i) = some a.2[i] := by
  rw [← t.objSize_eq sys] at hs
  exact contents_of sys (t.sound sys hwf) b w hs ops (hops.fits sys hwf) c w' hrun

/-- the end of a life (helper) -/
theorem fini_returns (sys : Sys) (t : AllocTy) (hwf : t.WF) (b : Nat) (w w' : World) (c : Client (t.denote sys)) (h hf : Heap) (hd : Heap.disj h hf)
    (he : w'.heap = h.add hf) (hI : ClientInv (t.sound sys hwf) b c h)
    (hfb : ∀ x, hf.b x = if b ≤ x ∧ x < b + t.size then none else w.heap.b x) (hft : hf.t = w.heap.t) (hempty : c.live = []) :
    match (t.denote sys).fini c.st w' with
    | .ok _ w'' =>
      (∀ x, b ≤ x → x < b + t.size → (w''.heap.b x).isSome = true) ∧
      (∀ x, (∀ f ∈ c.foreign, x ≠ f.1) → w''.heap.t x = w.heap.t x) ∧
      (∀ x, ¬ (b ≤ x ∧ x < b + t.size) → (∀ f ∈ c.foreign, ¬ (f.1 ≤ x ∧ x < f.1 + f.2.length)) →
        w''.heap.b x = w.heap.b x)
    | .oom w'' => w''.failed = true
    | .ub => False := by
  rw [← t.objSize_eq sys] at hfb ⊢
  exact fini_returns_of sys (t.sound sys hwf) b w w' c h hf hd he hI hfb hft hempty

/-- **C05.** If every block has been deallocated, destroying the allocator is safe and returns every
byte: the storage of the object is intact, and apart from what other parties allocated meanwhile the
malloc bookkeeping and all other memory are exactly as before the allocator was constructed. -/
theorem C05_destruction_returns_everything (sys : Sys) (t : AllocTy) (hwf : t.WF) (b : Nat) (w : World)
    (hs : Storage w b t.size) (ops : List Op) (hops : Sane t ops) (c : Client (t.denote sys)) (w' : World)
    (hrun : play sys (t.denote sys) b ops w = .ok c w') (hempty : c.live = []) :
    match (t.denote sys).fini c.st w' with
    | .ok _ w'' =>
      (∀ x, b ≤ x → x < b + t.size → (w''.heap.b x).isSome = true) ∧
      (∀ x, (∀ f ∈ c.foreign, x ≠ f.1) → w''.heap.t x = w.heap.t x) ∧
      (∀ x, ¬ (b ≤ x ∧ x < b + t.size) → (∀ f ∈ c.foreign, ¬ (f.1 ≤ x ∧ x < f.1 + f.2.length)) →
        w''.heap.b x = w.heap.b x)
    | .oom w'' => w''.failed = true
    | .ub => False := by
  rw [← t.objSize_eq sys] at hs ⊢
  exact returns_of sys (t.sound sys hwf) b w hs ops (hops.fits sys hwf) c w' hrun hempty

/-- **C06.** `owns(x)` is true for every address inside a live block, and false for every non-null
address that belongs to somebody else: memory allocated before (outside the object) or a malloc block
of another party. -/
theorem C06_owns_exact (sys : Sys) (t : AllocTy) (hwf : t.WF) (b : Nat) (w : World)
    (hs : Storage w b t.size) (ops : List Op) (hops : Sane t ops) (c : Client (t.denote sys)) (w' : World)
    (hrun : play sys (t.denote sys) b ops w = .ok c w')
    (owns : (t.denote sys).St → Nat → Bool) (ho : (t.denote sys).owns = some owns) (x : Nat) :
    ((∃ a ∈ c.live, a.1 ≤ x ∧ x < a.1 + a.2.length) → owns c.st x = true) ∧
    (x ≠ 0 → (∃ a ∈ c.foreign, a.1 ≤ x ∧ x < a.1 + a.2.length) → owns c.st x = false) ∧
    (x ≠ 0 → ¬ (b ≤ x ∧ x < b + t.size) → (w.heap.b x).isSome = true → owns c.st x = false) := by
  rw [← t.objSize_eq sys] at hs ⊢
  exact owns_of sys (t.sound sys hwf) b w hs ops (hops.fits sys hwf) c w' hrun owns ho x

/-! ### The hypotheses can be met, and the runs are not trivial -/

/-- A history with several live blocks, a write, a foreign block and a deallocation. -/
def demoOps : List Op :=
  [.allocate 24, .allocate 8, .write 0 3 7, .foreign 40, .allocate 32, .deallocate 2, .construct 0 0, .allocate 16]

example : demoTy.WF := by decide
example : Storage (demoWorld demoTy.size) 4096 demoTy.size := demoStorage _ (by decide)
example : Sane demoTy demoOps := by
  intro n hn
  simp [demoOps] at hn
  rcases hn with rfl | rfl | rfl | rfl <;> decide
example : (demoTy.denote (demoSys .manual)).owns.isSome = true := by decide
/-- the run succeeds with three live blocks, one of them holding the byte written -/
example : ((play (demoSys .manual) (demoTy.denote (demoSys .manual)) 4096 demoOps) (demoWorld demoTy.size)).test
    (fun c _ => c.live.map (fun a => a.2.length) == [16, 32, 8] && c.live.any (fun a => a.2[3]? == some 7)) = true := by
  decide +kernel

end KTL
