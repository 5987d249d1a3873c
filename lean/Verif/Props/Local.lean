import Verif.Spec.Local
import Verif.Props.Crew

/- C90: threads with allocators of their own, which get their memory from one `threaded` allocator. -/
namespace KTL

/-! ### Specification -/

/-- The thread has a container constructed or assigned from something that may be empty, so that 0 bytes may be requested. -/
def Job.mayBeEmpty : Job → Prop
  | .vectors _ ops => ∃ o ∈ ops, o.mayBeEmpty = true
  | .arrays _ ops => ∃ o ∈ ops, o.mayBeEmpty = true
  | .heaps _ _ _ ops => ∃ o ∈ ops, o.mayBeEmpty = true

/-- What thread `i` does: with its own allocator object of type `u`, over the shared allocator of type `t`. The sizes do not overflow (as in
C81, for the allocator that the thread would have with `reference<t>` in the place of `base`), nor does the size of the object; and no request for
0 bytes is passed on to the shared allocator. -/
def Job.SaneOver (t : AllocTy) (u : LTy) (j : Job) : Prop :=
  u.WF ∧ 0 < u.size ∧ u.size + t.margin < 2 ^ 64 ∧ j.Sane (u.plug t) ∧ (j.mayBeEmpty → u.keepsEmpty = true)

/-! ### A thread by itself -/

theorem LTy.plug_owns (t : AllocTy) (u : LTy) (h : u.hasOwns = true) : (u.plug t).hasOwns = true := by
  induction u with
  | base => cases h
  | null => rfl
  | linear S => rfl
  | stack S => rfl
  | freelist m M A ih => exact ih h
  | fallback P F ihP ihF =>
    simp only [hasOwns, Bool.and_eq_true] at h
    simp only [plug, AllocTy.hasOwns, ihP h.1, ihF h.2, Bool.and_self]
  | segragator T P F ihP ihF =>
    simp only [hasOwns, Bool.and_eq_true] at h
    simp only [plug, AllocTy.hasOwns, ihP h.1, ihF h.2, Bool.and_self]

theorem LTy.plug_wf (t : AllocTy) (ht : t.WF) (u : LTy) (h : u.WF) : (u.plug t).WF := by
  induction u with
  | base => exact ht
  | null => trivial
  | linear S => trivial
  | stack S => trivial
  | freelist m M A ih => exact ⟨ih h.1, h.2⟩
  | fallback P F ihP ihF => exact ⟨ihP h.1, ihF h.2.1, P.plug_owns t h.2.2⟩
  | segragator T P F ihP ihF => exact ⟨ihP h.1, ihF h.2⟩

theorem LTy.fits_empty (plat : Plat) (t : AllocTy) (u : LTy) (hk : u.keepsEmpty = true) (h : (u.plug t).fits plat 0) : u.fits (some0 (t.fits plat)) 0 := by
  induction u with
  | base => cases hk
  | null => trivial
  | linear S => exact h
  | stack S => exact h
  | freelist m M A ih => exact fun hr => absurd hr.1 (by omega)
  | fallback P F ihP ihF => exact absurd rfl h.1
  | segragator T P F ihP ihF => exact ⟨fun hT => ihP hk (h.1 hT), fun hT => absurd hT (by omega)⟩

theorem Job.safe_over (t : AllocTy) (hwf : t.WF) (plat : Plat) (u : LTy) (j : Job) (h : j.SaneOver t u) :
    Safe (t.fits plat) j.Sees (lthread u.denoteP j.prog) [] := by
  obtain ⟨hu, hz, hsz, hj, he⟩ := h
  have hpw := u.plug_wf t hwf hu
  refine Safe.mono (f := LTy.some0 (t.fits plat)) (fun n h => h.2) (safe_of_depot (fun n h => h.1) fun S => ?_)
  obtain ⟨hA⟩ := u.sound hu ⟨depot_sound (LTy.some0 (t.fits plat)) S⟩
  have hobj := u.objSize_eq
  refine lthread_alone S u.denoteP hA (by rw [hobj]; exact ⟨hz, t.fits_of_margin plat hwf _ hz hsz⟩) (by rw [hobj]; omega) j.prog fun a s => ?_
  have conv : ∀ {f0 : Prop} {sz N : Nat}, 0 < sz → ((∀ n, 0 < n → n ≤ N → sz * n < W64 ∧ (u.plug t).fits plat (sz * n)) ∧ (f0 → (u.plug t).fits plat 0)) →
      (f0 → u.keepsEmpty = true) → (∀ n, 0 < n → n ≤ N → sz * n < W64 ∧ u.fits (LTy.some0 (t.fits plat)) (sz * n)) ∧ (f0 → u.fits (LTy.some0 (t.fits plat)) 0) :=
    fun hs h1 h2 => ⟨fun n hn hle => ⟨(h1.1 n hn hle).1, u.fits_pos plat t hu _ (Nat.mul_pos hs hn) (h1.1 n hn hle).2⟩,
      fun h0 => u.fits_empty plat t (h2 h0) (h1.2 h0)⟩
  cases j with
  | vectors sz ops =>
    have hf := conv hj.1 (hj.2.fits hpw hj.1 plat) he
    exact vthread_alone hA a sz hj.1 ops hf.1 hf.2 s
  | arrays sz ops =>
    have hf := conv hj.1 (hj.2.fits hpw hj.1 plat) he
    exact athread_alone hA a sz hj.1 ops hf.1 hf.2 s
  | heaps E comp eq ops =>
    have hf := conv hj.1.1 (hj.2.1.fits hpw hj.1 plat) he
    exact hthread_alone hA a hj.1 comp eq ops hf.1 hf.2 hj.2.2 s

/-- **C90, threads with allocators of their own do not disturb each other.** Any number of threads; each constructs an allocator object of its own,
of any composition of free lists, fallbacks, segregators, stack and linear allocators over references to one shared `threaded` allocator (or
`malloc`), uses it for vectors, arrays or binary heaps, and destroys it. The accesses of the threads, also those inside their allocators, and
the calls of the shared allocator are interleaved in any way. There is no undefined behaviour; no two threads are ever about to access the same
byte, or to give it back; and a thread that has finished has read exactly what it would have read if its containers were sequences
(multisets) and the other threads did not exist. -/
theorem C90_local_allocators_are_isolated (sys : Sys) (t : AllocTy) (hwf : t.WF) (_hlock : t.callsAtOnce = true) (b : Nat) (w : World)
    (hs : Storage w b t.size) (us : Nat → LTy) (jobs : Nat → Job) (hj : ∀ i, (jobs i).SaneOver t (us i)) (sched : List Nat) :
    match crewPlay (t.denote sys) b (fun i => lthread (us i).denoteP (jobs i).prog) sched w with
    | .ok c w' => (∀ (i : Nat) xs, c.threads i = .ret xs → (jobs i).Sees xs) ∧
        (∀ (i j : Nat) x, i ≠ j → ¬ ((c.threads i).touches x ∧ (c.threads j).touches x)) ∧
        ∀ x e, ¬ (b ≤ x ∧ x < b + t.size) → w.heap.b x = some e → w'.heap.b x = some e
    | .oom w' => w'.failed = true
    | .ub => False := by
  have := crew_threads_are_isolated sys t hwf b w hs (fun i => lthread (us i).denoteP (jobs i).prog) (fun i => (jobs i).Sees)
    (fun i => (jobs i).safe_over t hwf sys.plat (us i) (hj i)) sched
  cases h : crewPlay (t.denote sys) b (fun i => lthread (us i).denoteP (jobs i).prog) sched w <;> rw [h] at this <;> exact this

/-- **C90, nothing leaks.** As C90, over the shared allocator with a ledger that turns every `deallocate` of a block that was not handed out with
that very size, and destruction while a block is out, into undefined behaviour: the allocators of the threads give everything they took back to
the shared one, with the right sizes. When all the threads that have run are finished, the shared allocator can be destroyed, and memory is as
before, up to the contents of the allocator object. -/
theorem C90_no_leak_right_sizes (sys : Sys) (t : AllocTy) (hwf : t.WF) (_hlock : t.callsAtOnce = true) (b : Nat) (w : World)
    (hs : Storage w b t.size) (us : Nat → LTy) (jobs : Nat → Job) (hj : ∀ i, (jobs i).SaneOver t (us i)) (sched : List Nat) :
    match crewPlay (strict (t.denote sys)) b (fun i => lthread (us i).denoteP (jobs i).prog) sched w with
    | .ok c w' => (∀ i ∈ sched, ∃ xs, c.threads i = .ret xs) →
        match (strict (t.denote sys)).fini c.st w' with
        | .ok _ w'' => (∀ x, ¬ (b ≤ x ∧ x < b + t.size) → w''.heap.b x = w.heap.b x) ∧
            (∀ x, b ≤ x → x < b + t.size → (w''.heap.b x).isSome = true) ∧ ∀ a, w''.heap.t a = w.heap.t a
        | .oom w'' => w''.failed = true
        | .ub => False
    | .oom w' => w'.failed = true
    | .ub => False := by
  have := crew_no_leak_right_sizes sys t hwf b w hs (fun i => lthread (us i).denoteP (jobs i).prog) (fun i => (jobs i).Sees)
    (fun i => (jobs i).safe_over t hwf sys.plat (us i) (hj i)) sched
  cases h : crewPlay (strict (t.denote sys)) b (fun i => lthread (us i).denoteP (jobs i).prog) sched w <;> rw [h] at this <;> exact this

/-- **C90, no thread waits for another.** Whatever the threads have done so far, if from now on only thread `i` runs, it comes to its end, through
the destructor of its allocator (or the platform runs out of memory). -/
theorem C90_no_thread_is_stuck (sys : Sys) (t : AllocTy) (hwf : t.WF) (_hlock : t.callsAtOnce = true) (b : Nat) (w : World)
    (hs : Storage w b t.size) (us : Nat → LTy) (jobs : Nat → Job) (hj : ∀ i, (jobs i).SaneOver t (us i)) (sched : List Nat)
    (c : Crew (t.denote sys) (List (List UInt8))) (w' : World)
    (hrun : crewPlay (t.denote sys) b (fun i => lthread (us i).denoteP (jobs i).prog) sched w = .ok c w') (i : Nat) : c.Finishes i w' :=
  crew_no_thread_is_stuck sys t hwf b w hs (fun i => lthread (us i).denoteP (jobs i).prog) (fun i => (jobs i).Sees)
    (fun i => (jobs i).safe_over t hwf sys.plat (us i) (hj i)) sched c w' hrun i

/-! ### Concrete instances -/

/-- A stack with a reference to the shared allocator as fallback; a free list; a free list for the small blocks only. -/
def demoLocals (i : Nat) : LTy :=
  if i = 0 then .fallback (.stack 16) .base
  else if i = 1 then .freelist 0 32 .base
  else .segragator 2 (.freelist 0 8 .base) .base

/-- Vectors that grow, and a heap. -/
def demoLocalJobs (i : Nat) : Job :=
  if i = 0 then .vectors 2 [.new, .push 0 [1, 2], .pushRange 0 (List.replicate 9 [3, 4]), .read 0 9]
  else if i = 1 then .heaps demoElt demoLess (fun a b => a == b) [.newList [5, 3], .insert 0 4, .pop 0]
  else .vectors 1 [.newFill 2 [7], .pushRange 0 [[8], [9]], .read 0 3]

example : ∀ i, (demoLocalJobs i).SaneOver (.threaded (.linear 512)) (demoLocals i) := by
  intro i
  unfold demoLocalJobs demoLocals
  split
  · exact ⟨by decide, by decide, by decide, ⟨by decide, by decide, fun h => absurd h (by simp [VOp.mayBeEmpty])⟩,
      fun h => absurd h (by simp [Job.mayBeEmpty, VOp.mayBeEmpty])⟩
  · split
    · exact ⟨by decide, by decide, by decide, ⟨demoElt_ok, ⟨by decide, fun _ => rfl⟩, .inr (by decide)⟩, fun _ => rfl⟩
    · exact ⟨by decide, by decide, by decide, ⟨by decide, by decide, fun _ => rfl⟩, fun _ => rfl⟩

/-- the threads take turns -/
example : (crewPlay ((AllocTy.threaded (.linear 512)).denote (demoSys .direct)) 4096 (fun i => lthread (demoLocals i).denoteP (demoLocalJobs i).prog)
    (List.replicate 150 [0, 1, 2]).flatten (demoWorld (AllocTy.threaded (.linear 512)).size)).test (fun c _ =>
      match c.threads 0, c.threads 1, c.threads 2 with
      | .ret x, .ret y, .ret u => x.getLast? == some [3, 4] && y.getLast? == some [3, 4] && u.getLast? == some [9]
      | _, _, _ => false) = true := by
  decide +kernel

end KTL
