import Verif.Spec.Gang
import Verif.Conc.BodySound
import Verif.Props.Crew

/- C84: threads that move on while another one is inside a call of `threaded`. -/
namespace KTL

/-! ### Specification -/

/-- The calls of the allocator run under a mutex from beginning to end, see C27. This is what makes `Gang.step` a model of the calls. -/
def AllocTy.takesMutex : AllocTy → Bool
  | .threaded _ => true
  | .reference A => A.takesMutex
  | _ => false

/-- all the facts about a run -/
theorem gang_facts (sys : Sys) (t : AllocTy) (hwf : t.WF) (hst : t.stepwise = true) (b : Nat) (w : World) (hs : Storage w b t.size)
    (jobs : Nat → Job) (hj : ∀ i, (jobs i).Sane t) (sched : List Nat) :
    ∃ I, SoundAll sys.plat (t.denoteB sys.plat) (t.fits sys.plat) I ∧
    match gangPlay (t.denoteB sys.plat) sys b (fun i => (jobs i).prog) sched w with
    | .ok T w' => ∃ h hf, Heap.disj h hf ∧ w'.heap = h.add hf ∧
        GInv sys.plat (t.fits sys.plat) I b (fun i => (jobs i).Sees) sched.dedup w'.failed T h ∧
        (∀ x, hf.b x = if b ≤ x ∧ x < b + t.size then none else w.heap.b x) ∧ hf.t = w.heap.t ∧ NoAlarm w w'
    | .oom w' => w'.failed = true
    | .ub => False := by
  obtain ⟨h0, hf, hd, he, hb, hfb, hft⟩ := storage_split hs
  obtain ⟨I, hI⟩ := t.soundAll sys.plat hwf hst
  refine ⟨I, hI, ?_⟩
  have := gang_spec (Q := fun i => (jobs i).Sees) hI sys rfl (fun i => (jobs i).prog) (fun i => (jobs i).safe t hwf sys.plat (hj i)) sched
    hs.1 hs.2.1 (by rw [t.objSizeB]; exact hs.2.2.1) w h0 hf hd he (by rw [t.objSizeB]; exact hb)
  cases hp : gangPlay (t.denoteB sys.plat) sys b (fun i => (jobs i).prog) sched w with
  | ok T w' =>
    rw [hp] at this
    obtain ⟨⟨h', hd', he', hc⟩, hna⟩ := this
    exact ⟨h', hf, hd', he', hc, hfb, hft, hna⟩
  | oom w' => rw [hp] at this; exact this
  | ub => rw [hp] at this; exact this

/-- **C84, the calls are those of the other properties.** The accesses of a call of `t.denoteB`, made one after another without interruption,
are the call of the allocator that the other properties are about; the same holds for constructors and destructors. -/
theorem C84_same_calls (sys : Sys) (t : AllocTy) (hst : t.stepwise = true) : (t.denoteB sys.plat).toA sys = t.denote sys :=
  t.denoteB_toA sys hst

/-- **C84, threads do not disturb each other, also inside a call.** Any number of threads share one `threaded` allocator, each with vectors,
arrays or binary heaps of its own. Any thread may move between any two accesses to memory of another one, also while that one is inside `allocate` or
`deallocate` and holds the mutex. There is no undefined behaviour; no two threads are ever about to access the same byte, or to give it back;
a thread that has finished has read exactly what it would have read alone; memory that is not the allocator's is as before; and no corruption is reported. -/
theorem C84_threads_inside_calls (sys : Sys) (t : AllocTy) (hwf : t.WF) (hst : t.stepwise = true) (_hlock : t.takesMutex = true) (b : Nat)
    (w : World) (hs : Storage w b t.size) (jobs : Nat → Job) (hj : ∀ i, (jobs i).Sane t) (sched : List Nat) :
    match gangPlay (t.denoteB sys.plat) sys b (fun i => (jobs i).prog) sched w with
    | .ok T w' => (∀ (i : Nat) xs, T.threads i = .ret xs → (jobs i).Sees xs) ∧
        (∀ (i j : Nat) x, i ≠ j → ¬ (T.touches w'.heap i x ∧ T.touches w'.heap j x)) ∧
        (∀ x e, ¬ (b ≤ x ∧ x < b + t.size) → w.heap.b x = some e → w'.heap.b x = some e) ∧
        ∀ p n x y, Msg.corruption p n x y ∈ w'.out → Msg.corruption p n x y ∈ w.out
    | .oom w' => w'.failed = true
    | .ub => False := by
  obtain ⟨I, hI, this⟩ := gang_facts sys t hwf hst b w hs jobs hj sched
  cases hp : gangPlay (t.denoteB sys.plat) sys b (fun i => (jobs i).prog) sched w with
  | ok T w' =>
    rw [hp] at this
    obtain ⟨h, hf, hd, he, hG, hfb, _, hna⟩ := this
    refine ⟨fun i xs hx => hG.result hx, fun i j x hij hx => ?_, fun x e hx hxe => ?_, hna⟩
    · rw [he] at hx
      exact hG.race_free sched.nodup_dedup hij hx.1 hx.2
    · have e1 : hf.b x = some e := by rw [hfb, if_neg hx]; exact hxe
      rw [he]
      rcases hd.1 x with e' | e'
      · show (h.b x).or (hf.b x) = some e
        rw [e', e1]; rfl
      · rw [e'] at e1; cases e1
  | oom w' => rw [hp] at this; exact this
  | ub => rw [hp] at this; exact this

/-- **C84, nothing leaks.** When all the threads that have run are finished, nobody holds the mutex, the allocator can be destroyed, and memory is
as before, up to the contents of the allocator object. -/
theorem C84_no_leak (sys : Sys) (t : AllocTy) (hwf : t.WF) (hst : t.stepwise = true) (_hlock : t.takesMutex = true) (b : Nat) (w : World)
    (hs : Storage w b t.size) (jobs : Nat → Job) (hj : ∀ i, (jobs i).Sane t) (sched : List Nat) :
    match gangPlay (t.denoteB sys.plat) sys b (fun i => (jobs i).prog) sched w with
    | .ok T w' => (∀ i ∈ sched, ∃ xs, T.threads i = .ret xs) → T.inside.isNone = true ∧
        match ((t.denoteB sys.plat).toA sys).fini T.st w' with
        | .ok _ w'' => (∀ x, ¬ (b ≤ x ∧ x < b + t.size) → w''.heap.b x = w.heap.b x) ∧
            (∀ x, b ≤ x → x < b + t.size → (w''.heap.b x).isSome = true) ∧ ∀ a, w''.heap.t a = w.heap.t a
        | .oom w'' => w''.failed = true
        | .ub => False
    | .oom w' => w'.failed = true
    | .ub => False := by
  obtain ⟨I, hI, this⟩ := gang_facts sys t hwf hst b w hs jobs hj sched
  cases hp : gangPlay (t.denoteB sys.plat) sys b (fun i => (jobs i).prog) sched w with
  | ok T w' =>
    rw [hp] at this
    obtain ⟨h, hf, hd, he, hG, hfb, hft, _⟩ := this
    intro hdone
    obtain ⟨hin, hI0⟩ := hG.done fun i hi => hdone i (List.mem_dedup.1 hi)
    refine ⟨by rw [hin]; rfl, ?_⟩
    obtain ⟨hA, rfl⟩ := hI sys rfl
    have := hA.fini_spec b T.st w' h hf hd he hI0
    cases hq : ((t.denoteB sys.plat).toA sys).fini T.st w' with
    | ok u w'' =>
      rw [hq] at this
      obtain ⟨⟨h', hd', he', hby⟩, _⟩ := this
      have hby : bytes b (t.denoteB sys.plat).objSize h' := hby
      rw [t.objSizeB] at hby
      refine ⟨fun x hx => ?_, fun x h1 h2 => ?_, fun a => ?_⟩
      · have : h'.b x = none := isSome_eq_none.1 (mt (hby.2 x).1 hx)
        rw [he']
        show (h'.b x).or (hf.b x) = _
        rw [this, hfb, if_neg hx]; rfl
      · rw [he']
        show ((h'.b x).or (hf.b x)).isSome = true
        have := (hby.2 x).2 ⟨h1, h2⟩
        cases e : h'.b x with
        | none => rw [e] at this; cases this
        | some v => rfl
      · rw [he']
        show (h'.t a).or (hf.t a) = _
        rw [hby.1 a, hft]; rfl
    | oom w'' => rw [hq] at this; exact this
    | ub => rw [hq] at this; exact this
  | oom w' => rw [hp] at this; exact this
  | ub => rw [hp] at this; exact this

/-- **C84, no deadlock.** Whatever the threads have done so far, and whoever holds the mutex: if from now on only that one and thread `i` move,
thread `i` comes to its end (or the platform runs out of memory). -/
theorem C84_no_deadlock (sys : Sys) (t : AllocTy) (hwf : t.WF) (hst : t.stepwise = true) (_hlock : t.takesMutex = true) (b : Nat) (w : World)
    (hs : Storage w b t.size) (jobs : Nat → Job) (hj : ∀ i, (jobs i).Sane t) (sched : List Nat)
    (T : Gang (t.denoteB sys.plat) (List (List UInt8))) (w' : World)
    (hrun : gangPlay (t.denoteB sys.plat) sys b (fun i => (jobs i).prog) sched w = .ok T w') (i : Nat) : T.Finishes sys i w' := by
  obtain ⟨I, hI, this⟩ := gang_facts sys t hwf hst b w hs jobs hj sched
  rw [hrun] at this
  obtain ⟨h, hf, hd, he, ⟨R, fl, ho, hr, hS, hN, hin, hfl, hdo, rfl, hO, hB⟩, _⟩ := this
  -- `i` may be a new thread
  have hl : (i :: sched).dedup.Nodup := List.nodup_dedup _
  have hm : ∀ j, j ∈ sched.dedup → j ∈ (i :: sched).dedup := fun j hj =>
    List.mem_dedup.2 (List.mem_cons_of_mem _ (List.mem_dedup.1 hj))
  have e : (i :: sched).dedup.flatMap R = sched.dedup.flatMap R := by
    by_cases hm : i ∈ sched
    · rw [List.dedup_cons_of_mem hm]
    · rw [List.dedup_cons_of_notMem hm, List.flatMap_cons, hN i (fun h => hm (List.mem_dedup.1 h))]
      rfl
  exact gang_finish (Q := fun i => (jobs i).Sees) hI sys rfl hl i (List.mem_dedup.2 List.mem_cons_self) T w' _ hf hd he
    ⟨R, fl, ho, hr, hS, fun j hj => hN j fun h => hj (hm j h), fun j c h => hm j (hin j c h), hfl, hdo, rfl, by rw [e]; exact hO, by rw [e]; exact hB⟩

/-! ### Concrete instances -/

/-- a composition whose calls make many accesses: the guard bytes of `overflow`, the links of `freelist` -/
def gangTy : AllocTy := .threaded (.overflow (.freelist 8 256 .mallocator))

/-- Two threads with vectors of a few bytes, or one with a heap. -/
def gangJobs (i : Nat) : Job :=
  if i = 2 then .heaps demoElt demoLess (fun a b => a == b) [.newList [5, 3], .pop 0] else
  if i = 0 then .vectors 1 [.newFill 3 [7], .read 0 2] else .vectors 1 [.newFill 2 [9], .read 0 1]

example : gangTy.WF ∧ gangTy.stepwise = true ∧ gangTy.takesMutex = true := by decide

example : Storage (demoWorld gangTy.size) 4096 gangTy.size := demoStorage _ (by decide)

example : ∀ i, (gangJobs i).Sane gangTy := by
  intro i
  unfold gangJobs
  split
  · exact ⟨demoElt_ok, ⟨by decide, fun _ => rfl⟩, .inr (by decide)⟩
  split
  · exact ⟨by decide, by decide, fun _ => rfl⟩
  · exact ⟨by decide, by decide, fun _ => rfl⟩

/-- After 30 turns thread 0 is inside a call and thread 1 waits. -/
example : (gangPlay (gangTy.denoteB .direct) (demoSys .direct) 4096 (fun i => (gangJobs i).prog)
    (List.replicate 30 [0, 1]).flatten (demoWorld gangTy.size)).test (fun T _ => (T.holds 0).isSome &&
      match T.threads 1 with
      | .alloc _ _ => true
      | _ => false) = true := by
  decide +kernel

/-- Both come to their end and have read their own bytes. -/
example : (gangPlay (gangTy.denoteB .direct) (demoSys .direct) 4096 (fun i => (gangJobs i).prog)
    (List.replicate 600 [0, 1]).flatten (demoWorld gangTy.size)).test (fun T _ =>
      match T.threads 0, T.threads 1 with
      | .ret x, .ret y => x == [[7]] && y == [[9]] && T.inside.isNone
      | _, _ => false) = true := by
  decide +kernel

end KTL
