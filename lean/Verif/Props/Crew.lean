import Verif.Spec.Crew
import Verif.Conc.ProgArray
import Verif.Conc.ProgHeap
import Verif.Props.Array
import Verif.Props.BinaryHeap
import Verif.Spec.Demo

/- C81: threads with containers of their own over one `threaded` allocator. -/
namespace KTL

/-! ### Specification -/

/-- What a thread does: a program with vectors, or one with arrays, of trivially copyable elements of size `sz`, or one with binary heaps
of elements of any type `α`. -/
inductive Job where
  | vectors (sz : Nat) (ops : List VOp)
  | arrays (sz : Nat) (ops : List ArrOp)
  | heaps {α : Type} (E : Elt α) (comp eq : α → α → Bool) (ops : List (BOp α))

/-- Every call of `allocate` or `deallocate` takes effect at once: `threaded` holds its mutex from the beginning of the call to its end
(C27), `malloc` and `free` are thread-safe, `null_allocator` does nothing, and `reference` passes the call on. This is what makes `Crew.step`
a model of the calls. -/
def AllocTy.callsAtOnce : AllocTy → Bool
  | .threaded _ => true
  | .mallocator => true
  | .null => true
  | .reference A => A.callsAtOnce
  | _ => false

/-- The accesses of the thread. -/
def Job.prog : Job → Prog (List (List UInt8))
  | .vectors sz ops => vthread sz ops
  | .arrays sz ops => athread sz ops
  | .heaps E comp eq ops => hthread E comp eq ops

/-- The sizes do not overflow, see C42, C49 and C52. The last element of a heap of a non-trivial type is not popped (`C56_false`). -/
def Job.Sane (t : AllocTy) : Job → Prop
  | .vectors sz ops => 0 < sz ∧ VSane t sz ops
  | .arrays sz ops => 0 < sz ∧ ASane t sz ops
  | .heaps E _ _ ops => E.Ok ∧ HSane t E ops ∧ (E.trivial = true ∨ popsLast [] ops = false)

/-- What the thread would read if its containers were mathematical sequences (heaps: multisets) and there were no other threads. -/
def Job.Sees : Job → List (List UInt8) → Prop
  | .vectors sz ops, xs => ∃ S, Seqs.Run sz ⟨[], []⟩ ops S ∧ xs = S.seen
  | .arrays sz ops, xs => ∃ S, Seqs.ARun sz ⟨[], []⟩ ops S ∧ xs = S.seen
  | .heaps E comp eq ops, xs => ∃ S, Bags.Run comp eq ⟨[], []⟩ ops S ∧ xs = S.seen.map (HObs.bytes E)

/-! ### A thread by itself -/

theorem vthread_alone {A : Allocator} {fA : Nat → Prop} (hA : Sound A fA) (b sz : Nat) (hz : 0 < sz) (ops : List VOp)
    (hfit : ∀ n, 0 < n → n ≤ 2 * weights ops → sz * n < W64 ∧ fA (sz * n)) (h0 : (∃ o ∈ ops, o.mayBeEmpty = true) → fA 0) (s : A.St) :
    Triple (hA.Inv b s []) ((vthread sz ops).seq A s)
      (fun r h => (∃ S, Seqs.Run sz ⟨[], []⟩ ops S ∧ r.2 = S.seen) ∧ hA.Inv b r.1 [] h) := by
  rw [seq_vthread]
  refine Triple.bind ((vrun hA b sz (weights ops) hz hfit ops h0 0 _ ⟨[], []⟩ (by omega)).pre fun x hx => ?_) fun c => ?_
  · refine ⟨[], rfl, rfl, rfl, fun g hg => by simp at hg, ?_⟩
    show (hA.Inv b s [] ∗ blocksV []) x
    rw [blocksV_nil, star_emp]; exact hx
  refine Triple.exists fun S => Triple.and fun hS => Triple.exists fun Γ => Triple.and fun hv => Triple.and fun _ => Triple.and fun hseen =>
    Triple.and fun hok => ?_
  rw [hv]
  have hW : ∀ n, n ≤ 2 * weights ops → sz * n < W64 := fun n hn => by
    by_cases h : n = 0
    · subst h; rw [Nat.mul_zero]; decide
    · exact (hfit n (by omega) hn).1
  exact Triple.bind (destroyAll_spec hA b sz _ hz hW Γ hok c.st) fun s' => Triple.pure _ fun h hh => ⟨⟨S, hS, hseen⟩, hh⟩

theorem athread_alone {A : Allocator} {fA : Nat → Prop} (hA : Sound A fA) (b sz : Nat) (hz : 0 < sz) (ops : List ArrOp)
    (hfit : ∀ n, 0 < n → n ≤ 2 * aweights ops → sz * n < W64 ∧ fA (sz * n)) (h0 : (∃ o ∈ ops, o.mayBeEmpty = true) → fA 0) (s : A.St) :
    Triple (hA.Inv b s []) ((athread sz ops).seq A s)
      (fun r h => (∃ S, Seqs.ARun sz ⟨[], []⟩ ops S ∧ r.2 = S.seen) ∧ hA.Inv b r.1 [] h) := by
  rw [seq_athread]
  refine Triple.bind ((arun hA b sz (aweights ops) hz hfit ops h0 0 _ ⟨[], []⟩ (by omega)).pre fun x hx => ?_) fun c => ?_
  · refine ⟨[], rfl, rfl, rfl, fun g hg => by simp at hg, ?_⟩
    show (hA.Inv b s [] ∗ blocksV []) x
    rw [blocksV_nil, star_emp]; exact hx
  refine Triple.exists fun S => Triple.and fun hS => Triple.exists fun Γ => Triple.and fun hv => Triple.and fun _ => Triple.and fun hseen =>
    Triple.and fun hok => ?_
  rw [Arrs.destroyAll_vec, show c.vs.map Arr.vec = Γ.map Ghost.v from hv]
  have hW : ∀ n, n ≤ 2 * (0 + aweights ops) → sz * n < W64 := fun n hn => by
    by_cases h : n = 0
    · subst h; rw [Nat.mul_zero]; decide
    · exact (hfit n (by omega) (by omega)).1
  exact Triple.bind (destroyAll_spec hA b sz _ hz hW Γ hok c.st) fun s' => Triple.pure _ fun h hh => ⟨⟨S, hS, hseen⟩, hh⟩

theorem hthread_alone {α : Type} {A : Allocator} {fA : Nat → Prop} (hA : Sound A fA) (b : Nat) {E : Elt α} (hE : E.Ok) (comp eq : α → α → Bool)
    (ops : List (BOp α)) (hfit : ∀ n, 0 < n → n ≤ 2 * hweights ops → E.size * n < W64 ∧ fA (E.size * n))
    (h0 : (∃ o ∈ ops, o.mayBeEmpty = true) → fA 0) (hpop : E.trivial = true ∨ popsLast [] ops = false) (s : A.St) :
    Triple (hA.Inv b s []) ((hthread E comp eq ops).seq A s)
      (fun r h => (∃ S, Bags.Run comp eq ⟨[], []⟩ ops S ∧ r.2 = S.seen.map (HObs.bytes E)) ∧ hA.Inv b r.1 [] h) := by
  rw [seq_hthread]
  refine Triple.bind ((hrun hA b (hweights ops) hE comp eq hfit ops h0 0 [] hpop _ ⟨[], []⟩ (by omega)).pre fun x hx =>
    ⟨[], rfl, rfl, rfl, rfl, fun g hg => by simp at hg, tpool_start hx⟩) fun c => ?_
  refine Triple.exists fun S => Triple.and fun hS => Triple.exists fun ns => Triple.exists fun Γ => Triple.and fun hv => Triple.and fun _ =>
    Triple.and fun _ => Triple.and fun hseen => Triple.and fun hok => ?_
  rw [hv]
  have hW : ∀ n, n ≤ 2 * hweights ops → E.size * n < W64 := fun n hn => by
    by_cases h : n = 0
    · subst h; rw [Nat.mul_zero]; decide
    · exact (hfit n (by omega) hn).1
  have key := hdestroyAll_spec hA b _ hE hW Γ hok c.st c.objs []
  rw [List.append_nil] at key
  exact Triple.bind key fun r => Triple.pure _ fun h hh => ⟨⟨S, hS, by rw [hseen]⟩, (tpool_end hh).2⟩

theorem Job.safe (t : AllocTy) (hwf : t.WF) (plat : Plat) (j : Job) (h : j.Sane t) : Safe (t.fits plat) j.Sees j.prog [] := by
  cases j with
  | vectors sz ops =>
    have hf := h.2.fits hwf h.1 plat
    exact safe_of_triple fun s => vthread_alone (oracle_sound _) 0 sz h.1 ops hf.1 hf.2 s
  | arrays sz ops =>
    have hf := h.2.fits hwf h.1 plat
    exact safe_of_triple fun s => athread_alone (oracle_sound _) 0 sz h.1 ops hf.1 hf.2 s
  | heaps E comp eq ops =>
    have hf := h.2.1.fits hwf h.1 plat
    exact safe_of_triple fun s => hthread_alone (oracle_sound _) 0 h.1 comp eq ops hf.1 hf.2 h.2.2 s

/-- all the facts about a run -/
theorem crew_facts {α : Type} (t : AllocTy) {plat : Plat} {A : Allocator} (hA : Sound A (t.fits plat)) (hsz : A.objSize = t.size) (b : Nat)
    (w : World) (hs : Storage w b t.size) (progs : Nat → Prog α) (Q : Nat → α → Prop) (hp : ∀ i, Safe (t.fits plat) (Q i) (progs i) []) (sched : List Nat) :
    match crewPlay A b progs sched w with
    | .ok c w' => ∃ h hf, Heap.disj h hf ∧ w'.heap = h.add hf ∧ CInv hA b Q sched.dedup c h ∧
        (∀ x, hf.b x = if b ≤ x ∧ x < b + t.size then none else w.heap.b x) ∧ hf.t = w.heap.t
    | .oom w' => w'.failed = true
    | .ub => False := by
  obtain ⟨h0, hf, hd, he, hb, hfb, hft⟩ := storage_split hs
  have := crew_spec hA b Q progs hp sched
    hs.1 hs.2.1 (by rw [hsz]; exact hs.2.2.1) w h0 hf hd he (by rw [hsz]; exact hb)
  cases hp : crewPlay A b progs sched w with
  | ok c w' =>
    rw [hp] at this
    obtain ⟨⟨h', hd', he', hc⟩, _⟩ := this
    exact ⟨h', hf, hd', he', hc, hfb, hft⟩
  | oom w' => rw [hp] at this; exact this
  | ub => rw [hp] at this; exact this

theorem crew_threads_are_isolated {α : Type} (sys : Sys) (t : AllocTy) (hwf : t.WF) (b : Nat) (w : World) (hs : Storage w b t.size)
    (progs : Nat → Prog α) (Q : Nat → α → Prop) (hp : ∀ i, Safe (t.fits sys.plat) (Q i) (progs i) []) (sched : List Nat) :
    match crewPlay (t.denote sys) b progs sched w with
    | .ok c w' => (∀ (i : Nat) xs, c.threads i = .ret xs → Q i xs) ∧
        (∀ (i j : Nat) x, i ≠ j → ¬ ((c.threads i).touches x ∧ (c.threads j).touches x)) ∧
        ∀ x e, ¬ (b ≤ x ∧ x < b + t.size) → w.heap.b x = some e → w'.heap.b x = some e
    | .oom w' => w'.failed = true
    | .ub => False := by
  have := crew_facts t (t.sound sys hwf) (t.objSize_eq sys) b w hs progs Q hp sched
  cases hrun : crewPlay (t.denote sys) b progs sched w with
  | ok c w' =>
    rw [hrun] at this
    obtain ⟨h, hf, hd, he, hc, hfb, _⟩ := this
    refine ⟨fun i xs hx => ?_, fun i j x hij hx => hc.race_free sched.nodup_dedup hij hx.1 hx.2, fun x e hx hxe => ?_⟩
    · obtain ⟨R, hS, _⟩ := hc
      have := hS i
      rw [hx] at this
      exact this.2
    · have e1 : hf.b x = some e := by rw [hfb, if_neg hx]; exact hxe
      rw [he]
      rcases hd.1 x with e' | e'
      · show (h.b x).or (hf.b x) = some e
        rw [e', e1]; rfl
      · rw [e'] at e1; cases e1
  | oom w' => rw [hrun] at this; exact this
  | ub => rw [hrun] at this; exact this

theorem crew_no_leak_right_sizes {α : Type} (sys : Sys) (t : AllocTy) (hwf : t.WF) (b : Nat) (w : World) (hs : Storage w b t.size)
    (progs : Nat → Prog α) (Q : Nat → α → Prop) (hp : ∀ i, Safe (t.fits sys.plat) (Q i) (progs i) []) (sched : List Nat) :
    match crewPlay (strict (t.denote sys)) b progs sched w with
    | .ok c w' => (∀ i ∈ sched, ∃ xs, c.threads i = .ret xs) →
        match (strict (t.denote sys)).fini c.st w' with
        | .ok _ w'' => (∀ x, ¬ (b ≤ x ∧ x < b + t.size) → w''.heap.b x = w.heap.b x) ∧
            (∀ x, b ≤ x → x < b + t.size → (w''.heap.b x).isSome = true) ∧ ∀ a, w''.heap.t a = w.heap.t a
        | .oom w'' => w''.failed = true
        | .ub => False
    | .oom w' => w'.failed = true
    | .ub => False := by
  have hsz : (strict (t.denote sys)).objSize = t.size := t.objSize_eq sys
  have hA := strict_sound (t.sound sys hwf)
  have := crew_facts t hA hsz b w hs progs Q hp sched
  cases hrun : crewPlay (strict (t.denote sys)) b progs sched w with
  | ok c w' =>
    rw [hrun] at this
    obtain ⟨h, hf, hd, he, hc, hfb, hft⟩ := this
    intro hdone
    have hI := hc.done fun i hi => hdone i (List.mem_dedup.1 hi)
    have := hA.fini_spec b c.st w' h hf hd he hI
    cases hq : (strict (t.denote sys)).fini c.st w' with
    | ok u w'' =>
      rw [hq] at this
      obtain ⟨⟨h', hd', he', hby⟩, _⟩ := this
      rw [hsz] at hby
      refine ⟨fun x hx => ?_, fun x h1 h2 => ?_, fun a => ?_⟩
      · have : h'.b x = none := isSome_eq_none.1 (mt (hby.2 x).1 hx)
        rw [he']
        show (h'.b x).or (hf.b x) = _
        rw [this, hfb, if_neg hx]; rfl
      · rw [he']
        show ((h'.b x).or (hf.b x)).isSome = true
        have := (hby.2 x).2 ⟨h1, h2⟩
        cases e : h'.b x with
        | none => rw [e] at this; cases this
        | some v => rfl
      · rw [he']
        show (h'.t a).or (hf.t a) = _
        rw [hby.1 a, hft]; rfl
    | oom w'' => rw [hq] at this; exact this
    | ub => rw [hq] at this; exact this
  | oom w' => rw [hrun] at this; exact this
  | ub => rw [hrun] at this; exact this

/-- If only thread `i` moves from now on, it ends, or memory is exhausted. -/
def Crew.Finishes {α : Type} {A : Allocator} (c : Crew A α) (i : Nat) (w : World) : Prop :=
  ∃ n, match c.run (List.replicate n i) w with
    | .ok c' _ => ∃ a, c'.threads i = .ret a
    | .oom w' => w'.failed = true
    | .ub => False

theorem crew_next {α : Type} {A : Allocator} {f : Nat → Prop} (hA : Sound A f) (b : Nat) (Q : Nat → α → Prop) (l : List Nat) (hl : l.Nodup) (i : Nat)
    (hi : i ∈ l) (c : Crew A α) (w : World) (h hf : Heap) (hd : Heap.disj h hf) (he : w.heap = h.add hf) (hc : CInv hA b Q l c h)
    (ih : ∀ c' w' h', c.step i w = .ok c' w' → Heap.disj h' hf → w'.heap = h'.add hf → CInv hA b Q l c' h' → c'.Finishes i w') : c.Finishes i w := by
  have hstep := crew_step hA b Q l hl c i hi w h hf hd he hc
  cases hs : c.step i w with
  | ok c' w' =>
    rw [hs] at hstep
    obtain ⟨⟨h', hd', he', hc'⟩, _⟩ := hstep
    obtain ⟨n, hn⟩ := ih c' w' h' hs hd' he' hc'
    refine ⟨n + 1, ?_⟩
    have : c.run (List.replicate (n + 1) i) w = c'.run (List.replicate n i) w' := bind_of_ok hs
    rw [this]; exact hn
  | oom w' =>
    rw [hs] at hstep
    refine ⟨1, ?_⟩
    have : c.run (List.replicate 1 i) w = .oom w' := by
      show (c.step i >>= fun c' => c'.run []) w = _
      rw [M.bind_apply, hs]
    rw [this]; exact hstep
  | ub => rw [hs] at hstep; exact hstep.elim

theorem crew_finish {α : Type} {A : Allocator} {f : Nat → Prop} (hA : Sound A f) (b : Nat) (Q : Nat → α → Prop) (l : List Nat) (hl : l.Nodup) (i : Nat)
    (hi : i ∈ l) (T : Prog α) (c : Crew A α) (hT : c.threads i = T) (w : World) (h hf : Heap) (hd : Heap.disj h hf) (he : w.heap = h.add hf)
    (hc : CInv hA b Q l c h) : c.Finishes i w := by
  have put : ∀ (c : Crew A α) (p : Prog α) (s : A.St), ({ c.put i p with st := s } : Crew A α).threads i = p := fun c p s => if_pos rfl
  induction T generalizing c w h with
  | ret a => exact ⟨0, a, hT⟩
  | stop =>
    refine crew_next hA b Q l hl i hi c w h hf hd he hc fun c' w' h' hs _ _ _ => ?_
    unfold Crew.step at hs; rw [hT] at hs; cases hs
  | ub =>
    refine crew_next hA b Q l hl i hi c w h hf hd he hc fun c' w' h' hs _ _ _ => ?_
    unfold Crew.step at hs; rw [hT] at hs; cases hs
  | load p k ih =>
    refine crew_next hA b Q l hl i hi c w h hf hd he hc fun c' w' h' hs hd' he' hc' => ?_
    unfold Crew.step at hs; rw [hT] at hs
    obtain ⟨v, w1, _, h2⟩ := bind_ok hs
    cases h2
    exact ih v _ (put c (k v) c.st) w' h' hd' he' hc'
  | store p v k ih =>
    refine crew_next hA b Q l hl i hi c w h hf hd he hc fun c' w' h' hs hd' he' hc' => ?_
    unfold Crew.step at hs; rw [hT] at hs
    obtain ⟨u, w1, _, h2⟩ := bind_ok hs
    cases h2
    exact ih _ (put c k c.st) w' h' hd' he' hc'
  | alloc n k ih =>
    refine crew_next hA b Q l hl i hi c w h hf hd he hc fun c' w' h' hs hd' he' hc' => ?_
    unfold Crew.step at hs; rw [hT] at hs
    obtain ⟨r, w1, _, h2⟩ := bind_ok hs
    cases h2
    exact ih r.1 _ (put c (k r.1) r.2) w' h' hd' he' hc'
  | dealloc p n k ih =>
    refine crew_next hA b Q l hl i hi c w h hf hd he hc fun c' w' h' hs hd' he' hc' => ?_
    unfold Crew.step at hs; rw [hT] at hs
    obtain ⟨s, w1, _, h2⟩ := bind_ok hs
    cases h2
    exact ih _ (put c k s) w' h' hd' he' hc'

theorem crew_no_thread_is_stuck {α : Type} (sys : Sys) (t : AllocTy) (hwf : t.WF) (b : Nat) (w : World) (hs : Storage w b t.size)
    (progs : Nat → Prog α) (Q : Nat → α → Prop) (hp : ∀ i, Safe (t.fits sys.plat) (Q i) (progs i) []) (sched : List Nat)
    (c : Crew (t.denote sys) α) (w' : World)
    (hrun : crewPlay (t.denote sys) b progs sched w = .ok c w') (i : Nat) : c.Finishes i w' := by
  have := crew_facts t (t.sound sys hwf) (t.objSize_eq sys) b w hs progs Q hp sched
  rw [hrun] at this
  obtain ⟨h, hf, hd, he, ⟨R, hS, hN, hp⟩, _⟩ := this
  -- `i` may be a new thread
  have hl : (i :: sched).dedup.Nodup := List.nodup_dedup _
  refine crew_finish (t.sound sys hwf) b Q _ hl i (List.mem_dedup.2 List.mem_cons_self) _ c rfl w' h hf hd he
    ⟨R, hS, fun j hj => hN j fun hm => hj (List.mem_dedup.2 (List.mem_cons_of_mem _ (List.mem_dedup.1 hm))), ?_⟩
  by_cases hm : i ∈ sched
  · rw [List.dedup_cons_of_mem hm]; exact hp
  · rw [List.dedup_cons_of_notMem hm, List.flatMap_cons, hN i (fun h => hm (List.mem_dedup.1 h))]
    exact hp

/-- **C81, threads do not disturb each other.** Any number of threads share one `threaded` allocator, of whatever composition (or use
`malloc`), each with vectors, arrays or binary heaps of its own, of whatever element type, in any interleaving of their accesses to memory and calls of the allocator. There is no undefined behaviour; no
two threads are ever about to access the same byte, or to give it back; and a thread that has finished has read exactly what it would have
read if its containers were sequences (multisets) and the other threads did not exist. -/
theorem C81_threads_are_isolated (sys : Sys) (t : AllocTy) (hwf : t.WF) (_hlock : t.callsAtOnce = true) (b : Nat) (w : World)
    (hs : Storage w b t.size) (jobs : Nat → Job) (hj : ∀ i, (jobs i).Sane t) (sched : List Nat) :
    match crewPlay (t.denote sys) b (fun i => (jobs i).prog) sched w with
    | .ok c w' => (∀ (i : Nat) xs, c.threads i = .ret xs → (jobs i).Sees xs) ∧
        (∀ (i j : Nat) x, i ≠ j → ¬ ((c.threads i).touches x ∧ (c.threads j).touches x)) ∧
        ∀ x e, ¬ (b ≤ x ∧ x < b + t.size) → w.heap.b x = some e → w'.heap.b x = some e
    | .oom w' => w'.failed = true
    | .ub => False := by
  have := crew_threads_are_isolated sys t hwf b w hs (fun i => (jobs i).prog) (fun i => (jobs i).Sees) (fun i => (jobs i).safe t hwf sys.plat (hj i)) sched
  cases h : crewPlay (t.denote sys) b (fun i => (jobs i).prog) sched w <;> rw [h] at this <;> exact this

/-- **C81, nothing leaks.** As C81, over the allocator with a ledger that turns every `deallocate` of a block that was not handed out with
that very size, and destruction while a block is out, into undefined behaviour. When all the threads that have run are finished, the allocator
can be destroyed, and memory is as before, up to the contents of the allocator object. -/
theorem C81_no_leak_right_sizes (sys : Sys) (t : AllocTy) (hwf : t.WF) (_hlock : t.callsAtOnce = true) (b : Nat) (w : World)
    (hs : Storage w b t.size) (jobs : Nat → Job) (hj : ∀ i, (jobs i).Sane t) (sched : List Nat) :
    match crewPlay (strict (t.denote sys)) b (fun i => (jobs i).prog) sched w with
    | .ok c w' => (∀ i ∈ sched, ∃ xs, c.threads i = .ret xs) →
        match (strict (t.denote sys)).fini c.st w' with
        | .ok _ w'' => (∀ x, ¬ (b ≤ x ∧ x < b + t.size) → w''.heap.b x = w.heap.b x) ∧
            (∀ x, b ≤ x → x < b + t.size → (w''.heap.b x).isSome = true) ∧ ∀ a, w''.heap.t a = w.heap.t a
        | .oom w'' => w''.failed = true
        | .ub => False
    | .oom w' => w'.failed = true
    | .ub => False := by
  have := crew_no_leak_right_sizes sys t hwf b w hs (fun i => (jobs i).prog) (fun i => (jobs i).Sees) (fun i => (jobs i).safe t hwf sys.plat (hj i)) sched
  cases h : crewPlay (strict (t.denote sys)) b (fun i => (jobs i).prog) sched w <;> rw [h] at this <;> exact this

/-- **C81, no thread waits for another.** Whatever the threads have done so far, if from now on only thread `i` runs, it comes to its end (or
the platform runs out of memory). -/
theorem C81_no_thread_is_stuck (sys : Sys) (t : AllocTy) (hwf : t.WF) (_hlock : t.callsAtOnce = true) (b : Nat) (w : World)
    (hs : Storage w b t.size) (jobs : Nat → Job) (hj : ∀ i, (jobs i).Sane t) (sched : List Nat)
    (c : Crew (t.denote sys) (List (List UInt8))) (w' : World)
    (hrun : crewPlay (t.denote sys) b (fun i => (jobs i).prog) sched w = .ok c w') (i : Nat) : c.Finishes i w' :=
  crew_no_thread_is_stuck sys t hwf b w hs (fun i => (jobs i).prog) (fun i => (jobs i).Sees) (fun i => (jobs i).safe t hwf sys.plat (hj i)) sched c w' hrun i

/-! ### Concrete instances -/

/-- Two vectors, a heap and an array over one `threaded` linear allocator, in four threads. -/
def demoJobs (i : Nat) : Job :=
  if i = 0 then .vectors 2 [.new, .push 0 [1, 2], .push 0 [3, 4], .read 0 1]
  else if i = 1 then .vectors 1 [.newFill 3 [7], .pushRange 0 [[8], [9]], .read 0 4]
  else if i = 2 then .heaps demoElt demoLess (fun a b => a == b) [.newList [5, 3], .insert 0 4, .pop 0]
  else .arrays 1 [.newRange [[5], [6]], .resize 0 3, .read 0 1]

example : ∀ i, (demoJobs i).Sane (.threaded (.linear 256)) := by
  intro i
  unfold demoJobs
  split
  · refine ⟨by decide, by decide, fun _ => rfl⟩
  · split
    · exact ⟨by decide, by decide, fun _ => rfl⟩
    · split
      · exact ⟨demoElt_ok, ⟨by decide, fun _ => rfl⟩, .inr (by decide)⟩
      · exact ⟨by decide, by decide, fun _ => rfl⟩

example : (AllocTy.threaded (.linear 256)).WF ∧ (AllocTy.threaded (.linear 256)).callsAtOnce = true := by decide

/-- the threads take turns; the second one reads the last element -/
example : (crewPlay ((AllocTy.threaded (.linear 256)).denote (demoSys .direct)) 4096 (fun i => (demoJobs i).prog)
    (List.replicate 100 [0, 1, 2, 3]).flatten (demoWorld (AllocTy.threaded (.linear 256)).size)).test (fun c _ =>
      match c.threads 0, c.threads 1, c.threads 2, c.threads 3 with
      | .ret x, .ret y, .ret u, .ret z => x.getLast? == some [3, 4] && y.getLast? == some [9] && u.getLast? == some [3, 4] && z.getLast? == some [6]
      | _, _, _, _ => false) = true := by
  decide +kernel

end KTL
