import Verif.Spec.GangOrder
import Verif.Props.Gang

/- C95: in every execution of threads over one `threaded` allocator, the accesses to one place are ordered by happens-before. -/
namespace KTL

/-- **C95, no data race.** Any number of threads share one `threaded` allocator, each with vectors, arrays or binary heaps of its own, and any
thread may move between any two accesses of another one, also inside a call. In every execution two steps that access the same byte (as an
element of a container, as a link or guard byte of the allocator, or as memory handed back to the platform), or both the fields of the allocator
object, are ordered by happens-before: by the order within a thread and by the mutex alone. -/
theorem C95_no_data_race (sys : Sys) (t : AllocTy) (hwf : t.WF) (hst : t.stepwise = true) (_hlock : t.takesMutex = true) (b : Nat)
    (w : World) (hs : Storage w b t.size) (jobs : Nat → Job) (hj : ∀ i, (jobs i).Sane t) (sched : List Nat) (k l : Nat) (hkl : k < l)
    (r q : GRec) (hr : (gangTrace (t.denoteB sys.plat) sys b (fun i => (jobs i).prog) sched w)[k]? = some r)
    (hq : (gangTrace (t.denoteB sys.plat) sys b (fun i => (jobs i).prog) sched w)[l]? = some q) (hm : r.Meets q) :
    GHB (gangTrace (t.denoteB sys.plat) sys b (fun i => (jobs i).prog) sched w) k l := by
  obtain ⟨h0, hf, hd, he, hb, hfb, hft⟩ := storage_split hs
  obtain ⟨I, hI⟩ := t.soundAll sys.plat hwf hst
  exact gang_trace (Q := fun i => (jobs i).Sees) hI sys rfl (fun i => (jobs i).prog) (fun i => (jobs i).safe t hwf sys.plat (hj i)) sched
    hs.1 hs.2.1 (by rw [t.objSizeB]; exact hs.2.2.1) w h0 hf hd he (by rw [t.objSizeB]; exact hb) k l r q hkl hr hq hm

/-- **C95, every step is recorded.** If the execution does not run out of memory, it has one record for each turn, made by the thread whose
turn it is. -/
theorem C95_every_step (sys : Sys) (X : BAlloc) (b : Nat) (progs : Nat → Prog (List (List UInt8))) (sched : List Nat) (w : World)
    (hok : (gangPlay X sys b progs sched w).test (fun _ _ => true) = true) :
    (gangTrace X sys b progs sched w).map (·.thread) = sched := by
  have main : ∀ (sched : List Nat) (T : Gang X (List (List UInt8))) (w : World), (Gang.run sys T sched w).test (fun _ _ => true) = true →
      (T.trace sys sched w).map (·.thread) = sched := by
    intro sched
    induction sched with
    | nil => intro T w _; rfl
    | cons i is ih =>
      intro T w h
      unfold Gang.run at h
      rw [M.bind_apply] at h
      unfold Gang.trace
      rw [List.map_cons, T.record_thread]
      cases e : T.step sys i w with
      | ok T' w' => rw [e] at h; exact congrArg _ (ih T' w' h)
      | oom w' => rw [e] at h; cases h
      | ub => rw [e] at h; cases h
  unfold gangPlay at hok
  rw [M.bind_apply] at hok
  unfold gangTrace
  cases e : (X.init b).seq sys w with
  | ok s w' => rw [e] at hok; exact main sched _ w' hok
  | oom w' => rw [e] at hok; cases hok
  | ub => rw [e] at hok; cases hok

/-- **C95, the records are honest.** A byte that the record of a step does not name is not changed and not taken away by the step. -/
theorem C95_records_honest (sys : Sys) (X : BAlloc) (T T' : Gang X (List (List UInt8))) (i : Nat) (w w' : World)
    (hs : T.step sys i w = .ok T' w') (x : Nat) (e : UInt8) (hx : w.heap.b x = some e) (hn : ¬ (T.record w.heap i).at x) :
    w'.heap.b x = some e := by
  have store : ∀ p v (u : World), M.store p v w = .ok () u → x ≠ p → u.heap.b x = some e := fun p v u h hne => by
    unfold M.store at h
    cases hp : w.heap.b p <;> rw [hp] at h <;> cases h
    show (if x = p then some v else w.heap.b x) = some e
    rw [if_neg hne]; exact hx
  have load : ∀ p v (u : World), M.load p w = .ok v u → u.heap.b x = some e := fun p v u h => by
    unfold M.load at h
    cases hp : w.heap.b p <;> rw [hp] at h <;> cases h
    exact hx
  have body : ∀ {g : Bool} {β : Type} (y y' : Body g β) (u : World), y.step sys w = .ok y' u →
      (¬ ∃ p n wr, y.access w.heap = some (p, n, wr) ∧ p ≤ x ∧ x < p + n) → u.heap.b x = some e := by
    intro g β y y' u h hn
    cases y with
    | ret a => cases h; exact hx
    | ub => cases h
    | null hg =>
      have h : M.nullDeref w = .ok y' u := h
      unfold M.nullDeref at h
      split at h <;> cases h
    | load p k =>
      simp only [Body.step, M.bind_apply] at h
      cases hl : M.load p w with
      | ok v w1 => rw [hl] at h; cases h; exact load _ _ _ hl
      | oom w1 => rw [hl] at h; cases h
      | ub => rw [hl] at h; cases h
    | store p v k =>
      simp only [Body.step, M.bind_apply] at h
      cases hl : M.store p v w with
      | ok v w1 => rw [hl] at h; cases h; exact store _ _ _ hl fun hp => hn ⟨p, 1, true, rfl, by omega, by omega⟩
      | oom w1 => rw [hl] at h; cases h
      | ub => rw [hl] at h; cases h
    | malloc hg n k =>
      simp only [Body.step, M.bind_apply, cMalloc] at h
      cases hm : sys.malloc w.tick w.heap n with
      | none => rw [hm] at h; cases h; exact hx
      | some ac =>
        rw [hm] at h
        cases h
        obtain ⟨_, _, _, _, h5⟩ := sys.valid _ _ _ _ _ hm
        show (if _ then _ else w.heap.b x) = some e
        rw [if_neg fun hr => by rw [h5 x hr.1 hr.2] at hx; cases hx]
        exact hx
    | free hg p k =>
      simp only [Body.step, M.bind_apply, cFree] at h
      by_cases hp : p = 0
      · rw [if_pos hp] at h; cases h; exact hx
      · rw [if_neg hp] at h
        cases ht : w.heap.t p with
        | none => rw [ht] at h; cases h
        | some n =>
          rw [ht] at h
          simp only at h
          split at h
          · rename_i w1 he
            split at he
            · cases he
              cases h
              show (if p ≤ x ∧ x < p + n then none else w.heap.b x) = some e
              rw [if_neg fun hr => hn ⟨p, n, true, by simp only [Body.access, if_neg hp, ht, Option.map_some], hr.1, hr.2⟩]
              exact hx
            · cases he
          · cases h
          · cases h
    | print hg m k => cases h; exact hx
  unfold Gang.step at hs
  unfold Gang.record at hn
  cases hh : T.holds i with
  | some c =>
    simp only [hh] at hs hn
    cases hov : c.over with
    | some r => simp only [hov] at hs; cases hs; exact hx
    | none =>
      simp only [hov, M.bind_apply] at hs hn
      cases c with
      | taking y k =>
        simp only [Visit.step, M.bind_apply] at hs
        cases hy : y.step sys w with
        | ok y' w1 => rw [hy] at hs; cases hs; exact body y y' _ hy hn
        | oom w1 => rw [hy] at hs; cases hs
        | ub => rw [hy] at hs; cases hs
      | giving y k =>
        simp only [Visit.step, M.bind_apply] at hs
        cases hy : y.step sys w with
        | ok y' w1 => rw [hy] at hs; cases hs; exact body y y' _ hy hn
        | oom w1 => rw [hy] at hs; cases hs
        | ub => rw [hy] at hs; cases hs
  | none =>
    simp only [hh] at hs hn
    cases hT : T.threads i with
    | ret a => rw [hT] at hs; cases hs; exact hx
    | stop => rw [hT] at hs; cases hs
    | ub => rw [hT] at hs; cases hs
    | load p k =>
      rw [hT] at hs
      simp only [M.bind_apply] at hs
      cases hl : M.load p w with
      | ok v w1 => rw [hl] at hs; cases hs; exact load _ _ _ hl
      | oom w1 => rw [hl] at hs; cases hs
      | ub => rw [hl] at hs; cases hs
    | store p v k =>
      rw [hT] at hs hn
      simp only [M.bind_apply] at hs
      cases hl : M.store p v w with
      | ok v w1 => rw [hl] at hs; cases hs; exact store _ _ _ hl fun hp => hn ⟨p, 1, true, rfl, by omega, by omega⟩
      | oom w1 => rw [hl] at hs; cases hs
      | ub => rw [hl] at hs; cases hs
    | alloc n k =>
      rw [hT] at hs
      simp only at hs
      split at hs <;> (cases hs; exact hx)
    | dealloc p n k =>
      rw [hT] at hs
      simp only at hs
      split at hs <;> (cases hs; exact hx)

/-- **C95, happens-before respects the execution.** What happens before comes before; so the relation of the theorem above is a strict order. -/
theorem C95_order {tr : List GRec} {k l : Nat} (h : GHB tr k l) : k < l := by
  induction h with
  | program hlt => exact hlt
  | mutex hlt => exact hlt
  | trans _ _ ih ih' => exact Nat.lt_trans ih ih'

/-! ### Concrete instances -/

/-- Thread 0 finishes its first vector, then thread 1 gets the same memory. -/
def raceTrace : List GRec := gangTrace (gangTy.denoteB .direct) (demoSys .direct) 4096 (fun i => (gangJobs i).prog)
  (List.replicate 300 0 ++ List.replicate 10 1) (demoWorld gangTy.size)

/-- Step 2 is a write of the freelist, by thread 0, to a byte that thread 1 reads in step 301. Between them the mutex is handed over. -/
theorem raceTrace_steps : raceTrace[2]? = some ⟨0, some (1048576, 1, true), false, false⟩ ∧
    raceTrace[301]? = some ⟨1, some (1048576, 1, false), false, false⟩ ∧ raceTrace[272]? = some ⟨0, none, false, true⟩ ∧
    raceTrace[300]? = some ⟨1, none, true, false⟩ := by decide +kernel

example : GHB raceTrace 2 301 := by
  refine C95_no_data_race (demoSys .direct) gangTy (by decide) (by decide) (by decide) 4096 _ (demoStorage _ (by decide)) gangJobs ?_ _ 2 301
    (by decide) _ _ raceTrace_steps.1 raceTrace_steps.2.1 (.inr ⟨1048576, ⟨_, _, _, rfl, by decide, by decide⟩, ⟨_, _, _, rfl, by decide, by decide⟩⟩)
  intro i
  unfold gangJobs
  split
  · exact ⟨demoElt_ok, ⟨by decide, fun _ => rfl⟩, .inr (by decide)⟩
  split
  · exact ⟨by decide, by decide, fun _ => rfl⟩
  · exact ⟨by decide, by decide, fun _ => rfl⟩

/-- Without the mutex such steps would not be ordered. -/
theorem C95_mutex_needed : ¬ GHB [⟨0, some (1048576, 1, true), false, false⟩, ⟨1, some (1048576, 1, false), false, false⟩] 0 1 := by
  have : ∀ k l, GHB [⟨0, some (1048576, 1, true), false, false⟩, ⟨1, some (1048576, 1, false), false, false⟩] k l → False := by
    intro k l h
    induction h with
    | program hlt hk hl h =>
      rename_i k l r q
      have hl' := (List.getElem?_eq_some_iff.1 hl).1
      have : k = 0 ∧ l = 1 := ⟨by simp at hl'; omega, by simp at hl'; omega⟩
      obtain ⟨rfl, rfl⟩ := this
      cases hk; cases hl; cases h
    | mutex hlt hk hl h h' =>
      rename_i k l r q
      have hl' := (List.getElem?_eq_some_iff.1 hl).1
      have : k = 0 ∧ l = 1 := ⟨by simp at hl'; omega, by simp at hl'; omega⟩
      obtain ⟨rfl, rfl⟩ := this
      cases hk; cases h
    | trans _ _ ih _ => exact ih
  exact this 0 1

end KTL
