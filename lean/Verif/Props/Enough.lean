import Verif.Spec.Steady
import Verif.Spec.Asks
import Verif.Spec.Depot
import Verif.Props.Crew
import Verif.Props.Served

/- C100: programs with containers stop only for want of memory. -/
namespace KTL

/-! ### Specification -/

/-- Run a program with containers by itself. The result: what it computed, or `none` if it stopped because a request was refused (the code
then uses the null pointer), and the sizes of all its requests in order, including the one that was refused. -/
def Prog.log {α : Type} (A : Allocator) : A.St → Prog α → M (List Nat × Option α)
  | _, .ret a => pure ([], some a)
  | _, .stop => pure ([], none)
  | _, .ub => M.ub
  | s, .load p k => do
    let v ← M.load p
    (k v).log A s
  | s, .store p v k => do
    M.store p v
    k.log A s
  | s, .alloc n k => do
    let r ← A.alloc s n
    let q ← (k r.1).log A r.2
    pure (n :: q.1, q.2)
  | s, .dealloc p n k => do
    let s' ← A.dealloc s p n
    k.log A s'

/-- Construct the allocator object at `b` and run the program. -/
def logPlay {α : Type} (A : Allocator) (b : Nat) (T : Prog α) : M (List Nat × Option α) := do
  let s ← A.init b
  T.log A s

/-- One access of thread `i`, see `Crew.step`; a thread that has stopped does no more. -/
def Crew.go {A : Allocator} {α : Type} (c : Crew A α) (i : Nat) : M (Crew A α) :=
  match c.threads i with
  | .stop => pure c
  | _ => c.step i

/-- A schedule: which thread moves. -/
def Crew.goAll {A : Allocator} {α : Type} (c : Crew A α) : List Nat → M (Crew A α)
  | [] => pure c
  | i :: is => do
    let c' ← c.go i
    c'.goAll is

/-- Construct the allocator object at `b`, then let the threads run. -/
def goPlay {α : Type} (A : Allocator) (b : Nat) (progs : Nat → Prog α) (sched : List Nat) : M (Crew A α) := do
  let s ← A.init b
  Crew.goAll ⟨s, progs⟩ sched

/-- The sizes the program may request, a bound known before it runs: up to twice the number of elements it mentions, and 0 if it has a
constructor that may ask for nothing. -/
def Job.requests : Job → Nat → Prop
  | .vectors sz ops, n => (∃ k, 0 < k ∧ k ≤ 2 * weights ops ∧ n = sz * k) ∨ (n = 0 ∧ ∃ o ∈ ops, o.mayBeEmpty = true)
  | .arrays sz ops, n => (∃ k, 0 < k ∧ k ≤ 2 * aweights ops ∧ n = sz * k) ∨ (n = 0 ∧ ∃ o ∈ ops, o.mayBeEmpty = true)
  | .heaps E _ _ ops, n => (∃ k, 0 < k ∧ k ≤ 2 * hweights ops ∧ n = E.size * k) ∨ (n = 0 ∧ ∃ o ∈ ops, o.mayBeEmpty = true)

/-- `n` rounded up to a multiple of the alignment. -/
def up16 (n : Nat) : Nat := 16 * ((n + 15) / 16)

/-- The number of requests the program makes at most, known before it runs: one for each operation; the constructor of a heap from a list may
make one for each element. -/
def Job.asks : Job → Nat
  | .vectors _ ops => ops.length
  | .arrays _ ops => ops.length
  | .heaps _ _ _ ops => (ops.map BOp.asks).sum

/-- The largest size the program may request. -/
def Job.largest : Job → Nat
  | .vectors sz ops => sz * (2 * weights ops)
  | .arrays sz ops => sz * (2 * aweights ops)
  | .heaps E _ _ ops => E.size * (2 * hweights ops)

/-! ### The failure flag is never reset -/

namespace Sticky

theorem cFree (p : Nat) : Sticky (cFree p) := by
  intro w a w' h hf
  unfold KTL.cFree at h
  repeat' split at h
  all_goals first | (cases h; done) | (cases h; exact hf)
theorem alignedFree (sys : Sys) (p : Nat) : Sticky (alignedFree sys p) := by
  unfold KTL.alignedFree
  split
  · exact Sticky.cFree _
  · exact Sticky.ite (Sticky.bind (Sticky.readPtr _) fun _ => Sticky.cFree _) (Sticky.pure _)
theorem alignedDelete (sys : Sys) (p : Nat) {d : M Unit} (h : Sticky d) : Sticky (alignedDelete sys p d) :=
  Sticky.bind h fun _ => alignedFree _ _
theorem print (m : Msg) : Sticky (M.print m) := by intro w a w' h hf; cases h; exact hf
theorem ifThen {c : Prop} [Decidable c] {x : M Unit} (h : Sticky x) : Sticky (M.ifThen c x) := Sticky.ite h (Sticky.pure _)
theorem scanBefore (p k r cur : Nat) : Sticky (Overflow.scanBefore p k r cur) := by
  induction r generalizing k cur with
  | zero => exact Sticky.pure _
  | succ r ih => exact Sticky.bind (Sticky.load _) fun _ => ih _ _
theorem scanAfter (p k r cur : Nat) : Sticky (Overflow.scanAfter p k r cur) := by
  induction r generalizing k cur with
  | zero => exact Sticky.pure _
  | succ r ih => exact Sticky.bind (Sticky.load _) fun _ => ih _ _

open Lean.Order in
theorem release {A : Allocator} (h : ∀ s p n, Sticky (A.dealloc s p n)) (Max : Nat) (s : A.St) (next : Nat) : Sticky (Freelist.release A Max s next) := by
  suffices ∀ s next w, ∀ a w', Freelist.release A Max s next w = .ok a w' → w.failed = true → w'.failed = true from
    fun w a w' => this s next w a w'
  refine Freelist.release.fixpoint_induct A Max (fun r => ∀ s next w, ∀ a w', r s next w = .ok a w' → w.failed = true → w'.failed = true) ?_ ?_
  · refine admissible_pi_apply (fun s (r : Nat → M A.St) => ∀ next w, ∀ a w', r next w = .ok a w' → w.failed = true → w'.failed = true) (fun s => ?_)
    refine admissible_pi_apply (fun next (r : M A.St) => ∀ w, ∀ a w', r w = .ok a w' → w.failed = true → w'.failed = true) (fun next => ?_)
    have key := admissible_pi_apply (fun (w : World) (r : Res A.St) => ∀ a w', r = .ok a w' → w.failed = true → w'.failed = true)
      (fun w => admissible_flatOrder (b := Res.ub) _ (fun a w' e => by cases e))
    exact key
  · intro r ih s next
    show Sticky (if next ≠ 0 then do
      let nx ← M.readPtr next
      let s' ← A.dealloc s next Max
      r s' nx
    else Pure.pure s)
    exact Sticky.ite (Sticky.bind (Sticky.readPtr _) fun nx => Sticky.bind (h _ _ _) fun s' => ih s' nx) (Sticky.pure _)

end Sticky

theorem sticky_dealloc (sys : Sys) (t : AllocTy) :
    (∀ (s : (t.denote sys).St) p n, Sticky ((t.denote sys).dealloc s p n)) ∧ ∀ s : (t.denote sys).St, Sticky ((t.denote sys).fini s) := by
  induction t with
  | null => exact ⟨fun _ _ _ => Sticky.pure _, fun _ => Sticky.pure _⟩
  | mallocator => exact ⟨fun _ _ _ => Sticky.alignedFree _ _, fun _ => Sticky.pure _⟩
  | linear S => exact ⟨fun _ _ _ => Sticky.pure _, fun _ => Sticky.pure _⟩
  | stack S => exact ⟨fun _ _ _ => Sticky.pure _, fun _ => Sticky.pure _⟩
  | freelist m M A ih =>
    exact ⟨fun _ _ _ => Sticky.ite (Sticky.bind (Sticky.writePtr _ _) fun _ => Sticky.pure _) (Sticky.pure _),
      fun _ => Sticky.bind (Sticky.release ih.1 _ _ _) fun _ => ih.2 _⟩
  | fallback P F ihP ihF =>
    exact ⟨fun _ _ _ => Sticky.ite (Sticky.bind (ihP.1 _ _ _) fun _ => Sticky.pure _) (Sticky.bind (ihF.1 _ _ _) fun _ => Sticky.pure _),
      fun _ => Sticky.bind (ihF.2 _) fun _ => ihP.2 _⟩
  | segragator T P F ihP ihF =>
    exact ⟨fun _ _ _ => Sticky.ite (Sticky.bind (ihP.1 _ _ _) fun _ => Sticky.pure _) (Sticky.bind (ihF.1 _ _ _) fun _ => Sticky.pure _),
      fun _ => Sticky.bind (ihF.2 _) fun _ => ihP.2 _⟩
  | cascading A ih =>
    refine ⟨fun s p n => ?_, fun s => ?_⟩
    · show Sticky (Cascading.dealloc sys (A.denote sys) p n false s)
      generalize false = prev
      induction s generalizing prev with
      | nil => exact Sticky.pure _
      | cons nd s ih' =>
        exact Sticky.ite (Sticky.bind (ih.1 _ _ _) fun _ => Sticky.ite (Sticky.bind (Sticky.alignedDelete _ _ (ih.2 _)) fun _ => Sticky.pure _)
          (Sticky.pure _)) (Sticky.bind (ih' true) fun _ => Sticky.pure _)
    · show Sticky (Cascading.release sys (A.denote sys) s)
      induction s with
      | nil => exact Sticky.pure _
      | cons nd s ih' => exact Sticky.bind (Sticky.alignedDelete _ _ (ih.2 _)) fun _ => ih'
  | overflow A ih =>
    exact ⟨fun _ _ _ => Sticky.ite (Sticky.bind (Sticky.scanBefore _ _ _ _) fun _ => Sticky.bind (Sticky.scanAfter _ _ _ _) fun _ =>
        Sticky.bind (Sticky.ifThen (Sticky.print _)) fun _ => Sticky.bind (ih.1 _ _ _) fun _ => Sticky.pure _) (Sticky.pure _),
      fun _ => Sticky.bind (Sticky.ifThen (Sticky.print _)) fun _ => Sticky.bind (Sticky.ifThen (Sticky.print _)) fun _ => ih.2 _⟩
  | threaded A ih => exact ih
  | shared A ih => exact ⟨fun _ _ _ => Sticky.bind (ih.1 _ _ _) fun _ => Sticky.pure _, fun _ => Sticky.alignedDelete _ _ (ih.2 _)⟩
  | reference A ih => exact ih

/-! ### One program -/

section
variable {α : Type} {A : Allocator} {f : Nat → Prop}

/-- a contract for fewer sizes. Proof helper, not code. -/
def Sound.fewer {g : Nat → Prop} (hA : Sound A f) (hg : ∀ n, g n → f n) : Sound A g where
  Inv b s L := fun h => (∀ c ∈ L, g c.2) ∧ hA.Inv b s L h
  objAlign := hA.objAlign
  perm hp h := ⟨fun c hc => h.1 c (hp.mem_iff.2 hc), hA.perm hp h.2⟩
  init_spec b h1 h2 h3 := (hA.init_spec b h1 h2 h3).post fun s h hh => ⟨by simp, hh⟩
  alloc_spec b s L n hf hn := Triple.and fun hL => (hA.alloc_spec b s L n (hg n hf) hn).post fun r h hh => by
    rcases hh with hh | ⟨h1, h2⟩
    · exact .inl ⟨hh.1, hL, hh.2⟩
    · refine .inr ⟨h1, star_mono_left (fun _ hI => ⟨fun c hc => ?_, hI⟩) h h2⟩
      rcases List.mem_cons.1 hc with rfl | hc
      · exact hf
      · exact hL c hc
  dealloc_local b s p bs R k hk := by
    intro w h hf hd he hP
    obtain ⟨ha, h1, h2, hd', rfl, ⟨hL, hI⟩, hV⟩ := hP
    have := hA.dealloc_local b s p bs R k hk w _ hf hd he ⟨ha, h1, h2, hd', rfl, hI, hV⟩
    cases e : A.dealloc s p bs.length w with
    | ok s' w' =>
      rw [e] at this
      obtain ⟨⟨h', x1, x2, x3⟩, x4⟩ := this
      exact ⟨⟨h', x1, x2, fun c hc => hL c (List.mem_cons_of_mem _ hc), x3⟩, x4⟩
    | oom w' => rw [e] at this; exact this
    | ub => rw [e] at this; exact this
  live_good h hm := ⟨(hA.live_good h.2 hm).1, h.1 _ hm⟩
  live_max f hf _ _ _ _ _ _ h hm := hA.live_max f hf h.2 hm
  owns_sound f hf _ _ _ _ _ h := hA.owns_sound f hf h.2
  owns_complete f hf _ _ _ _ _ h := hA.owns_complete f hf h.2
  construct_spec c hc b s L p := Triple.and fun hL => (hA.construct_spec c hc b s L p).post fun _ _ hh => ⟨hL, hh⟩
  destroy_spec c hc b s L p := Triple.and fun hL => (hA.destroy_spec c hc b s L p).post fun _ _ hh => ⟨hL, hh⟩
  fini_spec b s := Triple.and fun _ => hA.fini_spec b s

/-- What is kept while a program runs: `I`, where the first argument is what was requested so far; and `Bad` holds when a request is refused.
Proof helper, not code. -/
structure Meter (hA : Sound A f) (b : Nat) (g : Nat → Nat) (I : Nat → A.St → Prop) (Bad : Nat → World → Prop) : Prop where
  alloc : ∀ m s L n w r w' h, f n → hA.Inv b s L h → I m s → A.alloc s n w = .ok r w' → I (m + g n) r.2 ∧ (r.1 = 0 → Bad (m + g n) w')
  dealloc : ∀ m s L p n w s' w' h, hA.Inv b s ((p, n) :: L) h → I m s → A.dealloc s p n w = .ok s' w' → I m s'

theorem log_spec (hA : Sound A f) (b : Nat) {g : Nat → Nat} {I : Nat → A.St → Prop} {Bad : Nat → World → Prop} (hM : Meter hA b g I Bad)
    (Q : α → Prop) (T : Prog α) (R : List (Nat × List UInt8)) (m : Nat) (s : A.St) (w : World) (h hf : Heap) (hS : Safe f Q T R) (hT : T.Steady)
    (hd : Heap.disj h hf) (he : w.heap = h.add hf) (hP : Pool hA b s R h) (hI : I m s) :
    match T.log A s w with
    | .ok (rs, some a) _ => Q a ∧ ∀ n ∈ rs, f n
    | .ok (rs, none) w' => (∀ n ∈ rs, f n) ∧ Bad (m + (rs.map g).sum) w'
    | .oom w' => w'.failed = true
    | .ub => False := by
  induction T generalizing R m s w h with
  | ret a => exact ⟨hS.2, by simp⟩
  | stop => exact hT.elim
  | ub => exact hS.elim
  | load p k ih =>
    obtain ⟨q, bs, v, hm, hq, hv, hk⟩ := hS
    have := pool_load hA b s R hm hq hv w h hf hd he hP
    unfold Prog.log
    rw [M.bind_apply]
    cases e : M.load p w with
    | ok v' w' =>
      rw [e] at this
      obtain ⟨⟨h', hd', he', rfl, hP'⟩, _⟩ := this
      exact ih _ R m s w' h' hk (hT _) hd' he' hP' hI
    | oom w' => rw [e] at this; exact this
    | ub => rw [e] at this; exact this
  | store p v k ih =>
    obtain ⟨q, bs, R', hR, hq, hlt, hk⟩ := hS
    have := pool_store hA b s R R' v hR hq hlt w h hf hd he hP
    unfold Prog.log
    rw [M.bind_apply]
    cases e : M.store p v w with
    | ok v' w' =>
      rw [e] at this
      obtain ⟨⟨h', hd', he', hP'⟩, _⟩ := this
      exact ih _ m s w' h' hk hT hd' he' hP' hI
    | oom w' => rw [e] at this; exact this
    | ub => rw [e] at this; exact this
  | alloc n k ih =>
    obtain ⟨hfn, hn, hk0, hk⟩ := hS
    have := (hA.alloc_spec b s (R.map blk) n hfn hn).frame (blocksV R) w h hf hd he hP
    unfold Prog.log
    rw [M.bind_apply]
    cases e : A.alloc s n w with
    | ok r w' =>
      rw [e] at this
      obtain ⟨⟨h', hd', he', hh⟩, _⟩ := this
      obtain ⟨x1, x2, _, _, hInv, _⟩ := hP
      have hme := hM.alloc m s _ n w r w' _ hfn hInv hI e
      obtain ⟨h1, h2, hdd, rfl, (⟨e0, hI'⟩ | ⟨hg, h3, h4, hd'', rfl, hI', hB⟩), hR⟩ := hh
      · -- refused
        dsimp only
        rw [M.bind_apply, e0]
        rcases hT.1 with hst | hst
        · rw [hst]
          refine ⟨by simpa using hfn, ?_⟩
          simpa using hme.2 e0
        · have := ih 0 R _ r.2 w' _ hk0 hst hd' he' ⟨h1, h2, hdd, rfl, hI', hR⟩ hme.1
          cases e2 : (k 0).log A r.2 w' with
          | ok q w2 =>
            obtain ⟨rs, o⟩ := q
            rw [e2] at this
            cases o with
            | some a => exact ⟨this.1, by simpa using ⟨hfn, this.2⟩⟩
            | none => exact ⟨by simpa using ⟨hfn, this.1⟩, by simpa [Nat.add_assoc] using this.2⟩
          | oom w2 => rw [e2] at this; exact this
          | ub => rw [e2] at this; exact this
      · obtain ⟨bs, hlen, hV⟩ := bytes_exists hB
        have hd2 := Heap.disj_add_left.1 hdd
        have hall : blocksV ((r.1, bs) :: R) (h4.add h2) := ⟨h4, h2, hd2.2, rfl, hV, hR⟩
        have hP' : Pool hA b r.2 ((r.1, bs) :: R) ((h3.add h4).add h2) := by
          refine ⟨h3, h4.add h2, Heap.disj_add_right.2 ⟨hd'', hd2.1⟩, Heap.add_assoc _ _ _, ?_, hall⟩
          rw [← hlen] at hI'
          exact hI'
        have := ih r.1 _ _ r.2 w' _ (hk r.1 bs hg hlen ⟨_, hall⟩) (hT.2 r.1 hg.1) hd' he' hP' hme.1
        dsimp only
        rw [M.bind_apply]
        cases e2 : (k r.1).log A r.2 w' with
        | ok q w2 =>
          obtain ⟨rs, o⟩ := q
          rw [e2] at this
          cases o with
          | some a => exact ⟨this.1, by simpa using ⟨hfn, this.2⟩⟩
          | none => exact ⟨by simpa using ⟨hfn, this.1⟩, by simpa [Nat.add_assoc] using this.2⟩
        | oom w2 => rw [e2] at this; exact this
        | ub => rw [e2] at this; exact this
    | oom w' => rw [e] at this; exact this
    | ub => rw [e] at this; exact this
  | dealloc p n k ih =>
    obtain ⟨bs, R', hR, rfl, hk⟩ := hS
    rw [Pool.perm hR] at hP
    have := hA.dealloc_spec b s p bs R' w h hf hd he hP
    unfold Prog.log
    rw [M.bind_apply]
    cases e : A.dealloc s p bs.length w with
    | ok s' w' =>
      rw [e] at this
      obtain ⟨⟨h', hd', he', hP'⟩, _⟩ := this
      obtain ⟨x1, x2, _, _, hInv, _⟩ := hP
      exact ih R' m s' w' h' hk hT hd' he' hP' (hM.dealloc m s _ p _ w s' w' _ hInv hI e)
    | oom w' => rw [e] at this; exact this
    | ub => rw [e] at this; exact this

theorem meter_failed (hA : Sound A f) (b : Nat) (hn : ∀ n, f n → ∀ s, NoRefusal (A.alloc s n)) :
    Meter hA b (fun _ => 0) (fun _ _ => True) (fun _ w' => w'.failed = true) where
  alloc _ _ _ n w r w' _ hf _ _ e := ⟨trivial, fun h0 => hn n hf _ w r w' e h0⟩
  dealloc := fun _ _ _ _ _ _ _ _ _ _ _ _ => trivial

theorem meter_linear (N b : Nat) : Meter (linear_sound N) b up16 (fun m s => s.free - b ≤ m) (fun m _ => N < m) where
  alloc m s L n w r w' h hf hI hm e := by
    obtain ⟨_, hok, _⟩ := hI
    cases e
    unfold up16
    rcases Linear.alloc_ok hok hf with ⟨_, hr, _, hlt⟩ | ⟨s', hr, hok', hg, hfr, hle⟩
    · rw [hr]
      refine ⟨?_, fun _ => by omega⟩
      show s.free - b ≤ _
      omega
    · rw [hr]
      refine ⟨?_, fun h0 => absurd h0 hg.1⟩
      show s'.free - b ≤ _
      omega
  dealloc m s L p n w s' w' h hI hm e := by
    obtain ⟨_, hok, _⟩ := hI
    cases e
    have h1 := hok.base_end
    have h2 := hok.free_hi
    have h3 := hok.free_lo
    have h4 := hok.count_le
    have h5 := hok.base_eq
    unfold Linear.objSize at h1
    simp only [Linear.total] at h4
    have e2 : addW n (alignPad n) = n + (16 - n % 16) % 16 := by
      rw [alignPad_eq]; unfold addW; omega
    simp only [Linear.dealloc, e2]
    split
    · omega
    · split
      · unfold subW; omega
      · exact hm

theorem meter_stack (N b : Nat) : Meter (stack_sound N) b up16 (fun m s => s.free - b ≤ m) (fun m _ => N < m) where
  alloc m s L n w r w' h hf hI hm e := by
    cases e
    have := (meter_linear N b).alloc m s.lin L n w (Linear.alloc N s.lin n) w h hf hI hm rfl
    rw [show Linear.alloc N s.lin n = _ from Stack.lin_alloc N s n] at this
    exact this
  dealloc m s L p n w s' w' h hI hm e := by
    cases e
    have := (meter_linear N b).dealloc m s.lin L p n w (Linear.dealloc s.lin p n) w h hI hm rfl
    rw [show Linear.dealloc s.lin p n = _ from Stack.lin_dealloc s p n] at this
    exact this

theorem Meter.only {g' : Nat → Prop} {hA : Sound A f} {b : Nat} {g : Nat → Nat} {I : Nat → A.St → Prop} {Bad : Nat → World → Prop}
    (hM : Meter hA b g I Bad) (hg : ∀ n, g' n → f n) : Meter (hA.fewer hg) b g I Bad where
  alloc m s L n w r w' h hf hI := hM.alloc m s L n w r w' h (hg n hf) hI.2
  dealloc m s L p n w s' w' h hI := hM.dealloc m s L p n w s' w' h hI.2

/-- A program makes no more requests than its bound. -/
theorem log_asks (T : Prog α) (m : Nat) (h : T.Asks m) (s : A.St) (w w' : World) (rs : List Nat) (o : Option α) (e : T.log A s w = .ok (rs, o) w') :
    rs.length ≤ m := by
  induction T generalizing m s w w' rs o with
  | ret a => cases e; exact Nat.zero_le _
  | stop => cases e; exact Nat.zero_le _
  | ub => cases e
  | load p k ih =>
    obtain ⟨v, w1, _, e2⟩ := bind_ok e
    exact ih v m (h v) s w1 w' rs o e2
  | store p v k ih =>
    obtain ⟨v, w1, _, e2⟩ := bind_ok e
    exact ih m h s w1 w' rs o e2
  | alloc n k ih =>
    obtain ⟨m', rfl, hk⟩ := h
    obtain ⟨r, w1, _, e2⟩ := bind_ok e
    obtain ⟨q, w2, e3, e4⟩ := bind_ok e2
    cases e4
    have := ih r.1 m' (hk r.1) r.2 w1 w' q.1 q.2 e3
    simpa using this
  | dealloc p n k ih =>
    obtain ⟨s', w1, _, e2⟩ := bind_ok e
    exact ih m h s' w1 w' rs o e2

/-- An allocator that gets no memory from `malloc` never fails. -/
theorem log_no_oom (ha : ∀ s n w w', A.alloc s n w ≠ .oom w') (hd : ∀ s p n w w', A.dealloc s p n w ≠ .oom w') (T : Prog α) (s : A.St) (w w' : World) :
    T.log A s w ≠ .oom w' := by
  induction T generalizing s w w' with
  | ret a => nofun
  | stop => nofun
  | ub => nofun
  | load p k ih =>
    unfold Prog.log; rw [M.bind_apply]
    cases e : M.load p w with
    | ok v w1 => exact ih v s w1 w'
    | oom w1 => unfold M.load at e; split at e <;> cases e
    | ub => nofun
  | store p v k ih =>
    unfold Prog.log; rw [M.bind_apply]
    cases e : M.store p v w with
    | ok v w1 => exact ih s w1 w'
    | oom w1 => unfold M.store at e; split at e <;> cases e
    | ub => nofun
  | alloc n k ih =>
    unfold Prog.log; rw [M.bind_apply]
    cases e : A.alloc s n w with
    | ok r w1 =>
      dsimp only
      rw [M.bind_apply]
      cases e2 : (k r.1).log A r.2 w1 with
      | ok q w2 => nofun
      | oom w2 => exact absurd e2 (ih _ _ _ _)
      | ub => nofun
    | oom w1 => exact absurd e (ha _ _ _ _)
    | ub => nofun
  | dealloc p n k ih =>
    unfold Prog.log; rw [M.bind_apply]
    cases e : A.dealloc s p n w with
    | ok s' w1 => exact ih s' w1 w'
    | oom w1 => exact absurd e (hd _ _ _ _ _)
    | ub => nofun

/-- the whole run -/
theorem logPlay_spec (hA : Sound A f) (b : Nat) {g : Nat → Nat} {I : Nat → A.St → Prop} {Bad : Nat → World → Prop} (hM : Meter hA b g I Bad)
    (hI0 : ∀ w s w', A.init b w = .ok s w' → I 0 s) (Q : α → Prop) (T : Prog α) (hS : Safe f Q T []) (hT : T.Steady) (w : World) (hs : Storage w b A.objSize) :
    match logPlay A b T w with
    | .ok (rs, some a) _ => Q a ∧ ∀ n ∈ rs, f n
    | .ok (rs, none) w' => (∀ n ∈ rs, f n) ∧ Bad ((rs.map g).sum) w'
    | .oom w' => w'.failed = true
    | .ub => False := by
  obtain ⟨h0, hf, hd, he, hb, hfb, hft⟩ := storage_split hs
  have := hA.init_spec b hs.1 hs.2.1 hs.2.2.1 w h0 hf hd he hb
  unfold logPlay
  rw [M.bind_apply]
  cases e : A.init b w with
  | ok s w' =>
    rw [e] at this
    obtain ⟨⟨h', hd', he', hI⟩, _⟩ := this
    have := log_spec hA b hM Q T [] 0 s w' h' hf hS hT hd' he' (by
      show (hA.Inv b s [] ∗ blocksV []) h'
      rw [blocksV_nil, star_emp]; exact hI) (hI0 w s w' e)
    simp only [Nat.zero_add] at this
    exact this
  | oom w' => rw [e] at this; exact this
  | ub => rw [e] at this; exact this

/-! ### Several threads -/

theorem go_step (hA : Sound A f) (b : Nat) (Q : Nat → α → Prop) (l : List Nat) (hl : l.Nodup) (c : Crew A α) (i : Nat) (hi : i ∈ l) :
    Triple (CInv hA b Q l c) (c.go i) (fun c' => CInv hA b Q l c') := by
  unfold Crew.go
  split
  · exact Triple.pure _ fun _ h => h
  · exact crew_step hA b Q l hl c i hi

theorem go_failed (ha : ∀ s n, Sticky (A.alloc s n)) (hd : ∀ s p n, Sticky (A.dealloc s p n)) (hr : ∀ n, f n → ∀ s, NoRefusal (A.alloc s n))
    (hA : Sound A f) (b : Nat) (Q : Nat → α → Prop) (l : List Nat) (c : Crew A α) (i : Nat) {w w' : World} {c' : Crew A α} {h : Heap}
    (hC : CInv hA b Q l c h) (hS : (∀ i, (c.threads i).Steady) ∨ w.failed = true) (e : c.go i w = .ok c' w') :
    (∀ i, (c'.threads i).Steady) ∨ w'.failed = true := by
  have put : ∀ (p : Prog α) (s : A.St), p.Steady → (∀ i, (c.threads i).Steady) → ∀ j, (({ c.put i p with st := s } : Crew A α).threads j).Steady := by
    intro p s hp hall j
    show (if j = i then p else c.threads j).Steady
    split
    · exact hp
    · exact hall j
  obtain ⟨R, hSafe, _⟩ := hC
  have hSi := hSafe i
  unfold Crew.go Crew.step at e
  cases hT : c.threads i with
  | ret a => rw [hT] at e; cases e; exact hS
  | stop => rw [hT] at e; cases e; exact hS
  | ub => rw [hT] at e; cases e
  | load p k =>
    rw [hT] at e
    obtain ⟨v, w1, e1, e2⟩ := bind_ok e
    cases e2
    rcases hS with hS | hS
    · have := hS i
      rw [hT] at this
      exact .inl (put _ c.st (this v) hS)
    · exact .inr (Sticky.load p _ _ _ e1 hS)
  | store p v k =>
    rw [hT] at e
    obtain ⟨v, w1, e1, e2⟩ := bind_ok e
    cases e2
    rcases hS with hS | hS
    · have := hS i
      rw [hT] at this
      exact .inl (put _ c.st this hS)
    · exact .inr (Sticky.store p _ _ _ _ e1 hS)
  | alloc n k =>
    rw [hT] at e hSi
    obtain ⟨r, w1, e1, e2⟩ := bind_ok e
    cases e2
    rcases hS with hS | hS
    · have := hS i
      rw [hT] at this
      by_cases h0 : r.1 = 0
      · exact .inr (hr n hSi.1 _ _ _ _ e1 h0)
      · exact .inl (put _ r.2 (this.2 _ h0) hS)
    · exact .inr (ha _ _ _ _ _ e1 hS)
  | dealloc p n k =>
    rw [hT] at e
    obtain ⟨s, w1, e1, e2⟩ := bind_ok e
    cases e2
    rcases hS with hS | hS
    · have := hS i
      rw [hT] at this
      exact .inl (put _ s this hS)
    · exact .inr (hd _ _ _ _ _ _ e1 hS)

theorem goAll_spec (ha : ∀ s n, Sticky (A.alloc s n)) (hd : ∀ s p n, Sticky (A.dealloc s p n)) (hr : ∀ n, f n → ∀ s, NoRefusal (A.alloc s n))
    (hA : Sound A f) (b : Nat) (Q : Nat → α → Prop) (l : List Nat) (hl : l.Nodup) (sched : List Nat) (hs : ∀ i ∈ sched, i ∈ l)
    (c : Crew A α) (w : World) (h hf : Heap) (hdj : Heap.disj h hf) (he : w.heap = h.add hf) (hC : CInv hA b Q l c h)
    (hS : (∀ i, (c.threads i).Steady) ∨ w.failed = true) :
    match c.goAll sched w with
    | .ok c' w' => (∃ h', CInv hA b Q l c' h') ∧ ((∀ i, (c'.threads i).Steady) ∨ w'.failed = true)
    | .oom w' => w'.failed = true
    | .ub => False := by
  induction sched generalizing c w h with
  | nil => exact ⟨⟨h, hC⟩, hS⟩
  | cons i is ih =>
    have := go_step hA b Q l hl c i (hs i List.mem_cons_self) w h hf hdj he hC
    unfold Crew.goAll
    rw [M.bind_apply]
    cases e : c.go i w with
    | ok c' w' =>
      rw [e] at this
      obtain ⟨⟨h', hd', he', hC'⟩, _⟩ := this
      exact ih (fun j hj => hs j (List.mem_cons_of_mem _ hj)) c' w' h' hd' he' hC' (go_failed ha hd hr hA b Q l c i hC hS e)
    | oom w' => rw [e] at this; exact this
    | ub => rw [e] at this; exact this

end

theorem Job.safe_requests (t : AllocTy) (hwf : t.WF) (plat : Plat) (j : Job) (h : j.Sane t) :
    Safe (fun n => t.fits plat n ∧ j.requests n) j.Sees j.prog [] := by
  cases j with
  | vectors sz ops =>
    have hf := h.2.fits hwf h.1 plat
    exact safe_of_triple fun s => vthread_alone (oracle_sound _) 0 sz h.1 ops
      (fun n h1 h2 => ⟨(hf.1 n h1 h2).1, (hf.1 n h1 h2).2, .inl ⟨n, h1, h2, rfl⟩⟩) (fun h => ⟨hf.2 h, .inr ⟨rfl, h⟩⟩) s
  | arrays sz ops =>
    have hf := h.2.fits hwf h.1 plat
    exact safe_of_triple fun s => athread_alone (oracle_sound _) 0 sz h.1 ops
      (fun n h1 h2 => ⟨(hf.1 n h1 h2).1, (hf.1 n h1 h2).2, .inl ⟨n, h1, h2, rfl⟩⟩) (fun h => ⟨hf.2 h, .inr ⟨rfl, h⟩⟩) s
  | heaps E comp eq ops =>
    have hf := h.2.1.fits hwf h.1 plat
    exact safe_of_triple fun s => hthread_alone (oracle_sound _) 0 h.1 comp eq ops
      (fun n h1 h2 => ⟨(hf.1 n h1 h2).1, (hf.1 n h1 h2).2, .inl ⟨n, h1, h2, rfl⟩⟩) (fun h => ⟨hf.2 h, .inr ⟨rfl, h⟩⟩) h.2.2 s

theorem Job.steady (j : Job) : j.prog.Steady := by
  cases j with
  | vectors sz ops => exact Prog.Steady.vthread sz ops
  | arrays sz ops => exact Prog.Steady.athread sz ops
  | heaps E comp eq ops => exact Prog.Steady.hthread E comp eq ops

theorem Job.requests_small {t : AllocTy} {j : Job} (h : j.Sane t) {n : Nat} (hn : j.requests n) : n + t.margin < W64 := by
  have key : ∀ sz W : Nat, sz * (2 * W) + t.margin < 2 ^ 64 → (∃ k, 0 < k ∧ k ≤ 2 * W ∧ n = sz * k) ∨ n = 0 → n + t.margin < W64 := by
    rintro sz W hW (⟨k, _, hk, rfl⟩ | rfl)
    · have := Nat.mul_le_mul_left sz hk
      omega
    · omega
  cases j with
  | vectors sz ops => exact key _ _ h.2.1 (hn.imp_right And.left)
  | arrays sz ops => exact key _ _ h.2.1 (hn.imp_right And.left)
  | heaps E comp eq ops => exact key _ _ h.2.1.1 (hn.imp_right And.left)

theorem noRefusal_requests (sys : Sys) (t : AllocTy) (hwf : t.WF) {j : Job} (hj : j.Sane t) (hserve : ∀ n, j.requests n → t.serves n) (n : Nat)
    (hn : j.requests n) (s : (t.denote sys).St) : NoRefusal ((t.denote sys).alloc s n) :=
  (serves_spec sys t hwf n (Job.requests_small hj hn)).2 (hserve n hn) s

theorem Job.asks_prog (j : Job) : j.prog.Asks j.asks := by
  cases j with
  | vectors sz ops => exact Prog.Asks.vthread sz ops
  | arrays sz ops => exact Prog.Asks.athread sz ops
  | heaps E comp eq ops => exact Prog.Asks.hthread E comp eq ops

theorem Job.requests_le {j : Job} {n : Nat} (h : j.requests n) : n ≤ j.largest := by
  cases j with
  | vectors sz ops =>
    rcases h with ⟨k, _, hk, rfl⟩ | ⟨rfl, _⟩
    · exact Nat.mul_le_mul_left _ hk
    · exact Nat.zero_le _
  | arrays sz ops =>
    rcases h with ⟨k, _, hk, rfl⟩ | ⟨rfl, _⟩
    · exact Nat.mul_le_mul_left _ hk
    · exact Nat.zero_le _
  | heaps E comp eq ops =>
    rcases h with ⟨k, _, hk, rfl⟩ | ⟨rfl, _⟩
    · exact Nat.mul_le_mul_left _ hk
    · exact Nat.zero_le _

theorem sum_up16_le (rs : List Nat) (m k : Nat) (hl : rs.length ≤ k) (h : ∀ n ∈ rs, n ≤ m) : (rs.map up16).sum ≤ k * up16 m := by
  have : (rs.map up16).sum ≤ rs.length * up16 m := by
    clear hl
    induction rs with
    | nil => simp
    | cons n rs ih =>
      have h1 := ih fun x hx => h x (List.mem_cons_of_mem _ hx)
      have h2 : up16 n ≤ up16 m := by
        have := h n List.mem_cons_self
        unfold up16; omega
      simp only [List.map_cons, List.sum_cons, List.length_cons, Nat.add_mul, Nat.one_mul]
      omega
  exact Nat.le_trans this (Nat.mul_le_mul_right _ hl)

/-- both fixed buffers -/
theorem fixed_room {A : Allocator} {N b : Nat} {hA : Sound A fun n => Linear.Fits N n} {I : Nat → A.St → Prop} (hM : Meter hA b up16 I fun m _ => N < m)
    (hI0 : ∀ w s w', A.init b w = .ok s w' → I 0 s) (plat : Plat) (j : Job) (hj : j.Sane (.linear N)) (w : World) (hs : Storage w b A.objSize)
    (hi : ∀ w w', A.init b w ≠ .oom w') (ha : ∀ s n w w', A.alloc s n w ≠ .oom w') (hd : ∀ s p n w w', A.dealloc s p n w ≠ .oom w') :
    match logPlay A b j.prog w with
    | .ok (rs, some xs) _ => j.Sees xs ∧ (∀ n ∈ rs, j.requests n) ∧ rs.length ≤ j.asks
    | .ok (rs, none) _ => N < (rs.map up16).sum ∧ (∀ n ∈ rs, j.requests n) ∧ rs.length ≤ j.asks
    | .oom _ => False
    | .ub => False := by
  have hM' := hM.only (g' := fun n => Linear.Fits N n ∧ j.requests n) fun n h => h.1
  have := logPlay_spec _ b hM' hI0 j.Sees j.prog (j.safe_requests (.linear N) trivial plat hj) j.steady w hs
  cases e : logPlay A b j.prog w with
  | ok q w' =>
    obtain ⟨rs, o⟩ := q
    obtain ⟨s, w1, _, e2⟩ := bind_ok e
    have hlen := log_asks j.prog j.asks j.asks_prog s w1 w' rs o e2
    rw [e] at this
    cases o with
    | some xs => exact ⟨this.1, fun n hn => (this.2 n hn).2, hlen⟩
    | none => exact ⟨this.2, fun n hn => (this.1 n hn).2, hlen⟩
  | oom w' =>
    unfold logPlay at e
    rw [M.bind_apply] at e
    cases e1 : A.init b w with
    | ok s w1 => rw [e1] at e; exact log_no_oom ha hd _ _ _ _ e
    | oom w1 => exact hi _ _ e1
    | ub => rw [e1] at e; cases e
  | ub => rw [e] at this; exact this

/-! ### The theorems -/

/-- **C100.** A program with any number of containers over an allocator that refuses no size the program may request: it ends with the
result it would have with mathematical sequences (multisets), and if it stops before its end, then `malloc` has failed. In no case does it
request a size outside the bound known before it runs. -/
theorem C100_stops_only_when_malloc_fails (sys : Sys) (t : AllocTy) (hwf : t.WF) (b : Nat) (w : World) (hs : Storage w b t.size)
    (j : Job) (hj : j.Sane t) (hserve : ∀ n, j.requests n → t.serves n) :
    match logPlay (t.denote sys) b j.prog w with
    | .ok (rs, some xs) _ => j.Sees xs ∧ ∀ n ∈ rs, j.requests n
    | .ok (rs, none) w' => w'.failed = true ∧ ∀ n ∈ rs, j.requests n
    | .oom w' => w'.failed = true
    | .ub => False := by
  have hA := (t.sound sys hwf).fewer (g := fun n => t.fits sys.plat n ∧ j.requests n) fun n h => h.1
  have := logPlay_spec hA b (meter_failed hA b fun n hn s => noRefusal_requests sys t hwf hj hserve n hn.2 s) (fun _ _ _ _ => trivial) j.Sees j.prog
    (j.safe_requests t hwf sys.plat hj) j.steady w (by rw [t.objSize_eq sys]; exact hs)
  cases e : logPlay (t.denote sys) b j.prog w with
  | ok q w' =>
    obtain ⟨rs, o⟩ := q
    rw [e] at this
    cases o with
    | some xs => exact ⟨this.1, fun n hn => (this.2 n hn).2⟩
    | none => exact ⟨this.2, fun n hn => (this.1 n hn).2⟩
  | oom w' => rw [e] at this; exact this
  | ub => rw [e] at this; exact this

/-- **C100, threads.** Any number of threads, each with containers of its own, over one allocator whose calls take effect at once (`threaded`),
under every schedule: a thread stops before its end only if `malloc` has failed. -/
theorem C100_threads_stop_only_when_malloc_fails (sys : Sys) (t : AllocTy) (hwf : t.WF) (_hat : t.callsAtOnce = true) (b : Nat) (w : World)
    (hs : Storage w b t.size) (jobs : Nat → Job) (hj : ∀ i, (jobs i).Sane t) (hserve : ∀ i n, (jobs i).requests n → t.serves n) (sched : List Nat) :
    match goPlay (t.denote sys) b (fun i => (jobs i).prog) sched w with
    | .ok c w' => (∀ i xs, c.threads i = .ret xs → (jobs i).Sees xs) ∧ ∀ i, c.threads i = .stop → w'.failed = true
    | .oom w' => w'.failed = true
    | .ub => False := by
  have hA := (t.sound sys hwf).fewer (g := fun n => t.fits sys.plat n ∧ ∃ i, (jobs i).requests n) fun n h => h.1
  obtain ⟨h0, hf, hd, he, hb, hfb, hft⟩ := storage_split hs
  have := hA.init_spec b hs.1 hs.2.1 (by rw [t.objSize_eq sys]; exact hs.2.2.1) w h0 hf hd he (by rw [t.objSize_eq sys]; exact hb)
  unfold goPlay
  rw [M.bind_apply]
  cases e : (t.denote sys).init b w with
  | ok s w' =>
    rw [e] at this
    obtain ⟨⟨h', hd', he', hI⟩, _⟩ := this
    have hC : CInv hA b (fun i => (jobs i).Sees) sched.dedup ⟨s, fun i => (jobs i).prog⟩ h' := by
      refine ⟨fun _ => [], fun i => ?_, fun _ _ => rfl, ?_⟩
      · exact Safe.mono (fun n h => ⟨h.1, i, h.2⟩) ((jobs i).safe_requests t hwf sys.plat (hj i))
      · have : (sched.dedup.flatMap fun _ => ([] : List (Nat × List UInt8))) = [] := by simp
        rw [this]
        show (hA.Inv b s [] ∗ blocksV []) h'
        rw [blocksV_nil, star_emp]; exact hI
    have := goAll_spec (sticky_alloc sys t).2 (sticky_dealloc sys t).1
      (fun n hn s => hn.2.elim fun i hi => noRefusal_requests sys t hwf (hj i) (hserve i) n hi s) hA b _ sched.dedup sched.nodup_dedup sched
      (fun i hi => List.mem_dedup.2 hi) _ w' h' hf hd' he' hC (.inl fun i => (jobs i).steady)
    dsimp only
    cases e2 : Crew.goAll (A := t.denote sys) ⟨s, fun i => (jobs i).prog⟩ sched w' with
    | ok c w2 =>
      rw [e2] at this
      obtain ⟨⟨h2, R, hS, _⟩, hst⟩ := this
      refine ⟨fun i xs hx => ?_, fun i hi => ?_⟩
      · have := hS i
        rw [hx] at this
        exact this.2
      · rcases hst with hst | hst
        · have := hst i
          rw [hi] at this
          exact this.elim
        · exact hst
    | oom w2 => rw [e2] at this; exact this
    | ub => rw [e2] at this; exact this
  | oom w' => rw [e] at this; exact this
  | ub => rw [e] at this; exact this

/-- **C100, a buffer of fixed size.** Over a `linear_allocator<N>` a program stops before its end only if the sizes of its requests, up to and
including the refused one and rounded up to the alignment, add up to more than `N`. It never makes more requests, nor larger ones, than the
bounds known before it runs. -/
theorem C100_linear_stops_only_when_full (sys : Sys) (N : Nat) (b : Nat) (w : World) (hs : Storage w b (AllocTy.linear N).size) (j : Job)
    (hj : j.Sane (.linear N)) :
    match logPlay ((AllocTy.linear N).denote sys) b j.prog w with
    | .ok (rs, some xs) _ => j.Sees xs ∧ (∀ n ∈ rs, j.requests n) ∧ rs.length ≤ j.asks
    | .ok (rs, none) _ => N < (rs.map up16).sum ∧ (∀ n ∈ rs, j.requests n) ∧ rs.length ≤ j.asks
    | .oom _ => False
    | .ub => False :=
  fixed_room (meter_linear N b) (fun w s w' e => by cases e; exact Nat.le_of_eq (Nat.sub_self b)) sys.plat j hj w hs (fun _ _ => nofun)
    (fun _ _ _ _ => nofun) (fun _ _ _ _ _ => nofun)

/-- The same for `stack_allocator<N>`. -/
theorem C100_stack_stops_only_when_full (sys : Sys) (N : Nat) (b : Nat) (w : World) (hs : Storage w b (AllocTy.stack N).size) (j : Job)
    (hj : j.Sane (.stack N)) :
    match logPlay ((AllocTy.stack N).denote sys) b j.prog w with
    | .ok (rs, some xs) _ => j.Sees xs ∧ (∀ n ∈ rs, j.requests n) ∧ rs.length ≤ j.asks
    | .ok (rs, none) _ => N < (rs.map up16).sum ∧ (∀ n ∈ rs, j.requests n) ∧ rs.length ≤ j.asks
    | .oom _ => False
    | .ub => False :=
  fixed_room (A := stackAlloc N) (hA := stack_sound N) (meter_stack N b) (fun w s w' e => by cases e; exact Nat.le_of_eq (Nat.sub_self b)) sys.plat j
    hj w hs (fun _ _ => nofun) (fun _ _ _ _ => nofun) (fun _ _ _ _ _ => nofun)

/-- **C100, a buffer that is large enough.** A program whose needs, computed before it runs, fit in the buffer of a `linear_allocator` or a
`stack_allocator` runs to its end with the right result, whatever it does. -/
theorem C100_room_known_beforehand (sys : Sys) (N : Nat) (b : Nat) (w : World) (t : AllocTy) (ht : t = .linear N ∨ t = .stack N)
    (hs : Storage w b t.size) (j : Job) (hj : j.Sane t) (hroom : j.asks * up16 j.largest ≤ N) :
    match logPlay (t.denote sys) b j.prog w with
    | .ok (_, some xs) _ => j.Sees xs
    | _ => False := by
  have key : ∀ r : Res (List Nat × Option (List (List UInt8))), (match r with
      | .ok (rs, some xs) _ => j.Sees xs ∧ (∀ n ∈ rs, j.requests n) ∧ rs.length ≤ j.asks
      | .ok (rs, none) _ => N < (rs.map up16).sum ∧ (∀ n ∈ rs, j.requests n) ∧ rs.length ≤ j.asks
      | .oom _ => False
      | .ub => False) → match r with
      | .ok (_, some xs) _ => j.Sees xs
      | _ => False := by
    rintro (⟨⟨rs, _ | xs⟩, w'⟩ | w' | _) h
    · have := sum_up16_le rs j.largest j.asks h.2.2 fun n hn => Job.requests_le (h.2.1 n hn)
      omega
    · exact h.1
    · exact h
    · exact h
  rcases ht with rfl | rfl
  · exact key _ (C100_linear_stops_only_when_full sys N b w hs j hj)
  · exact key _ (C100_stack_stops_only_when_full sys N b w hs j hj)

/-! ### Examples -/

/-- two vectors of 2-byte elements that outgrow a buffer of 64 bytes -/
def enoughOps : List VOp :=
  [.new, .push 0 [1, 2], .push 0 [3, 4], .push 0 [5, 6], .newSize 20, .pushFrom 1 0 0 3, .read 1 21, .erase 0 0, .destroy 0]

/-- a composition that falls back on the heap -/
def enoughTy : AllocTy := .fallback (.stack 64) .mallocator

example : enoughTy.WF := by decide
example : Storage (demoWorld enoughTy.size) 4096 enoughTy.size := demoStorage _ (by decide)

theorem enough_sane {t : AllocTy} (h : 2 * (2 * weights enoughOps) + t.margin < 2 ^ 64) : (Job.vectors 2 enoughOps).Sane t := by
  refine ⟨by decide, h, ?_⟩
  intro h
  have : ¬ ∃ o ∈ enoughOps, o.mayBeEmpty = true := by decide
  exact absurd h this

example : (Job.vectors 2 enoughOps).Sane enoughTy := enough_sane (by decide)
example : ∀ n, (Job.vectors 2 enoughOps).requests n → enoughTy.serves n := fun _ _ => .inr trivial

/-- `malloc` works: the program ends -/
example : (logPlay (enoughTy.denote (demoSys .direct)) 4096 (Job.vectors 2 enoughOps).prog (demoWorld enoughTy.size)).test (fun r w =>
    r.2 == some [[1, 2], [3, 4], [5, 6], [1, 2, 3, 4, 5, 6], [3, 4], [3, 4, 5, 6]] && r.1 == [2, 4, 6, 40, 60] && !w.failed) = true := by
  decide +kernel

/-- `malloc` fails: the program stops, and only then -/
example : (logPlay (enoughTy.denote { demoSys .direct with malloc := fun _ _ _ => none, valid := by intros; simp_all }) 4096
    (Job.vectors 2 enoughOps).prog (demoWorld enoughTy.size)).test (fun r w => r.2.isNone && w.failed) = true := by
  decide +kernel

/-- a cascade of buffers serves every request that fits in one buffer -/
example : ∀ n, (Job.vectors 2 enoughOps).requests n → (AllocTy.threaded (.cascading (.linear 256))).serves n := fun n hn => by
  have : n ≤ 2 * (2 * weights enoughOps) := Job.requests_le hn
  exact ⟨(n + 15) / 16, by omega, by have : weights enoughOps ≤ 60 := by decide
                                     omega⟩

/-- a buffer that is large enough, and one that is not -/
example : (Job.vectors 2 enoughOps).asks * up16 (Job.vectors 2 enoughOps).largest ≤ 2048 := by decide
example : (Job.vectors 2 enoughOps).Sane (.linear 2048) := enough_sane (by decide)
example : (logPlay ((AllocTy.linear 64).denote (demoSys .direct)) 4096 (Job.vectors 2 enoughOps).prog (demoWorld (AllocTy.linear 64).size)).test
    (fun r _ => r.2.isNone && r.1 == [2, 4, 6, 40]) = true := by
  decide +kernel

end KTL
