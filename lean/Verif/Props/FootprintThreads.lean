import Verif.Props.FootprintContainers

/- C102 for threads: what a program with threads holds from `malloc` is bounded by the numbers of containers that its threads have at
the same time, in every interleaving. -/
namespace KTL

/-! ### Specification: how many containers exist, read off the program -/

/-- How many arrays exist at most after the operation, if there are at most `n` before it. -/
def ArrOp.count (n : Nat) : ArrOp → Nat
  | .new | .newSize _ | .newFill _ _ | .newRange _ | .copy _ | .move _ => n + 1
  | .destroy i => if i < n then n - 1 else n
  | _ => n

/-- The same for heaps. -/
def BOp.count {α : Type} (n : Nat) : BOp α → Nat
  | .new | .newCap _ | .newList _ | .copy _ | .move _ => n + 1
  | .destroy i => if i < n then n - 1 else n
  | _ => n

/-- How many containers exist at most at any time while the program runs, if the count changes by `cnt` with each operation. -/
def peakBy {O : Type} (cnt : Nat → O → Nat) (n : Nat) : List O → Nat
  | [] => n
  | o :: os => max n (peakBy cnt (cnt n o) os)

/-- How many containers the thread has at most at any time. -/
def Job.peak : Job → Nat
  | .vectors _ ops => peakBy VOp.count 0 ops
  | .arrays _ ops => peakBy ArrOp.count 0 ops
  | .heaps _ _ _ ops => peakBy BOp.count 0 ops

/-- The thread does its work `k` times. -/
def Job.rounds (k : Nat) : Job → Job
  | .vectors sz ops => .vectors sz (List.replicate k ops).flatten
  | .arrays sz ops => .arrays sz (List.replicate k ops).flatten
  | .heaps E comp eq ops => .heaps E comp eq (List.replicate k ops).flatten

/-- The program destroys all the containers it makes. -/
def Job.Clears : Job → Prop
  | .vectors _ ops => ops.foldl VOp.count 0 = 0
  | .arrays _ ops => ops.foldl ArrOp.count 0 = 0
  | .heaps _ _ _ ops => ops.foldl BOp.count 0 = 0

/-! ### Counting -/

theorem peakBy_append {O : Type} (cnt : Nat → O → Nat) (n : Nat) (a b : List O) :
    peakBy cnt n (a ++ b) = max (peakBy cnt n a) (peakBy cnt (a.foldl cnt n) b) := by
  induction a generalizing n with
  | nil =>
    have : n ≤ peakBy cnt n b := by
      cases b with
      | nil => exact Nat.le_refl _
      | cons o os => exact Nat.le_max_left _ _
    exact (Nat.max_eq_right this).symm
  | cons o a ih =>
    show max n (peakBy cnt _ (a ++ b)) = max (max n (peakBy cnt _ a)) _
    rw [ih, Nat.max_assoc]
    rfl

theorem peakBy_rounds {O : Type} (cnt : Nat → O → Nat) (body : List O) (h : body.foldl cnt 0 = 0) (k : Nat) :
    peakBy cnt 0 (List.replicate k body).flatten ≤ peakBy cnt 0 body := by
  induction k with
  | zero => exact Nat.zero_le _
  | succ k ih =>
    rw [List.replicate_succ, List.flatten_cons, peakBy_append, h]
    exact Nat.max_le.2 ⟨Nat.le_refl _, ih⟩

theorem Job.rounds_peak (j : Job) (h : j.Clears) (k : Nat) : (j.rounds k).peak ≤ j.peak := by
  cases j <;> exact peakBy_rounds _ _ h k

theorem Seqs.Run.peak {sz : Nat} {S S' : Seqs} {pre post : List VOp} {n : Nat} (h : Seqs.Run sz S pre S') (hn : S.xs.length ≤ n) :
    S'.xs.length ≤ peakBy VOp.count n (pre ++ post) := by
  induction h generalizing n with
  | nil =>
    cases post with
    | nil => exact hn
    | cons o os => exact Nat.le_trans hn (Nat.le_max_left _ _)
  | cons h _ ih => exact Nat.le_trans (ih (h.count hn)) (Nat.le_max_right _ _)

theorem Seqs.AStep.count {sz : Nat} {S S' : Seqs} {o : ArrOp} {n : Nat} (h : S.AStep sz o S') (hn : S.xs.length ≤ n) : S'.xs.length ≤ o.count n := by
  cases o <;> simp only [Seqs.AStep] at h
  case resize =>
    split at h
    · obtain ⟨us, _, _, rfl⟩ := h; simpa [ArrOp.count] using hn
    · subst h; exact hn
  case assign =>
    split at h
    · subst h; split <;> simpa [ArrOp.count] using hn
    · subst h; exact hn
  case assignFrom =>
    split at h
    · subst h; split <;> simpa [ArrOp.count] using hn
    · subst h; exact hn
  all_goals exact Seqs.Step.count h hn

theorem Seqs.ARun.peak {sz : Nat} {S S' : Seqs} {pre post : List ArrOp} {n : Nat} (h : Seqs.ARun sz S pre S') (hn : S.xs.length ≤ n) :
    S'.xs.length ≤ peakBy ArrOp.count n (pre ++ post) := by
  induction h generalizing n with
  | nil =>
    cases post with
    | nil => exact hn
    | cons o os => exact Nat.le_trans hn (Nat.le_max_left _ _)
  | cons h _ ih => exact Nat.le_trans (ih (h.count hn)) (Nat.le_max_right _ _)

section
variable {α : Type}

theorem Bags.Step.count {comp eq : α → α → Bool} {S S' : Bags α} {o : BOp α} {n : Nat} (h : S.Step comp eq o S') (hn : S.xs.length ≤ n) :
    S'.xs.length ≤ o.count n := by
  cases o <;> simp only [Bags.Step] at h <;> simp only [BOp.count]
  case newList => obtain ⟨ys, _, rfl⟩ := h; simpa using hn
  case destroy i =>
    subst h
    simp only [List.length_eraseIdx]
    split <;> split <;> omega
  case insert =>
    split at h
    · obtain ⟨zs, _, rfl⟩ := h; simpa using hn
    · subst h; exact hn
  case insertFrom =>
    split at h
    · split at h
      · split at h
        · subst h; exact hn
        · obtain ⟨zs, _, rfl⟩ := h; simpa using hn
      · subst h; exact hn
    · subst h; exact hn
  case pop =>
    split at h
    · obtain ⟨_, zs, _, rfl⟩ := h; simpa using hn
    · subst h; exact hn
  case peek =>
    split at h
    · obtain ⟨_, rfl⟩ := h; exact hn
    · subst h; exact hn
  all_goals
    (repeat' split at h) <;> subst h <;>
      (try simp only [List.length_append, List.length_set, List.length_cons, List.length_nil]) <;> omega

theorem Bags.Run.peak {comp eq : α → α → Bool} {S S' : Bags α} {pre post : List (BOp α)} {n : Nat} (h : Bags.Run comp eq S pre S')
    (hn : S.xs.length ≤ n) : S'.xs.length ≤ peakBy BOp.count n (pre ++ post) := by
  induction h generalizing n with
  | nil =>
    cases post with
    | nil => exact hn
    | cons o os => exact Nat.le_trans hn (Nat.le_max_left _ _)
  | cons h _ ih => exact Nat.le_trans (ih (h.count hn)) (Nat.le_max_right _ _)

/-! ### A program that counts its blocks

Proof machinery: the program with a count of its blocks; a request beyond `q` blocks is undefined behaviour. -/

def Prog.tally (q : Nat) : Nat → Prog α → Prog (α × Nat)
  | c, .ret a => .ret (a, c)
  | _, .stop => .stop
  | _, .ub => .ub
  | c, .load p k => .load p fun v => (k v).tally q c
  | c, .store p v k => .store p v (k.tally q c)
  | c, .alloc n k => if c < q then .alloc n fun p => (k p).tally q (if p = 0 then c else c + 1) else .ub
  | c, .dealloc p n k => .dealloc p n (k.tally q (c - 1))

theorem Prog.tally_bind {β : Type} (q c : Nat) (x : Prog α) (f : α → Prog β) :
    (x >>= f).tally q c = x.tally q c >>= fun r => (f r.1).tally q r.2 := by
  show (x.bind f).tally q c = (x.tally q c).bind _
  induction x generalizing c with
  | ret a => rfl
  | stop => rfl
  | ub => rfl
  | load p k ih => exact congrArg (Prog.load p) (funext fun v => ih v c)
  | store p v k ih => exact congrArg (Prog.store p v) (ih c)
  | alloc n k ih =>
    simp only [Prog.bind, Prog.tally]
    split
    · exact congrArg (Prog.alloc n) (funext fun p => ih p _)
    · rfl
  | dealloc p n k ih => exact congrArg (Prog.dealloc p n) (ih _)

/-- Here the program does not reach the limit. -/
def KeepsTo (f : Nat → Prop) (q : Nat) (T : Prog α) (s : (oracle f).St) (w : World) : Prop :=
  (T.tally q (Oracle.live s).length).seq (oracle f) s w = (T.seq (oracle f) s >>= fun r => pure (r.1, (r.2, (Oracle.live r.1).length))) w

theorem bind_eq {β : Type} {c : M α} {k l : α → M β} {w : World} (h : ∀ a w', c w = .ok a w' → k a w' = l a w') : (c >>= k) w = (c >>= l) w := by
  rw [M.bind_apply, M.bind_apply]
  cases e : c w with
  | ok a w' => exact h a w' e
  | oom w' => rfl
  | ub => rfl

theorem Oracle.alloc_len {f : Nat → Prop} {s : Oracle} {n : Nat} {w w' : World} {r : Nat × Oracle} (h : Oracle.alloc f s n w = .ok r w') :
    r.2.live.length = if r.1 = 0 then s.live.length else s.live.length + 1 := by
  unfold Oracle.alloc at h
  split at h
  · split at h
    · cases h
    · split at h
      · cases h; rfl
      · rename_i ha
        split at h
        · cases h
          dsimp only
          rw [if_neg ha]; rfl
        · cases h
  · cases h

theorem Oracle.dealloc_len {s s' : Oracle} {p n : Nat} {w w' : World} (h : Oracle.dealloc s p n w = .ok s' w') :
    s'.live.length = s.live.length - 1 := by
  unfold Oracle.dealloc at h
  split at h
  · rename_i hm
    cases h
    exact List.length_erase_of_mem hm
  · cases h

theorem KeepsTo.asks {f : Nat → Prop} {q m : Nat} {T : Prog α} (hT : T.Asks m) {s : (oracle f).St} (hs : m = 0 ∨ (Oracle.live s).length + m ≤ q) (w : World) :
    KeepsTo f q T s w := by
  induction T generalizing m s w with
  | ret a => rfl
  | stop => rfl
  | ub => rfl
  | load p k ih =>
    unfold KeepsTo
    show (M.load p >>= fun v => ((k v).tally q (Oracle.live s).length).seq (oracle f) s) w = ((M.load p >>= fun v => (k v).seq (oracle f) s) >>= _) w
    rw [bind_assoc]
    exact bind_eq fun v w' _ => ih v (hT v) hs w'
  | store p v k ih =>
    unfold KeepsTo
    show (M.store p v >>= fun _ => (k.tally q (Oracle.live s).length).seq (oracle f) s) w = ((M.store p v >>= fun _ => k.seq (oracle f) s) >>= _) w
    rw [bind_assoc]
    exact bind_eq fun _ w' _ => ih hT hs w'
  | alloc n k ih =>
    obtain ⟨m', rfl, hk⟩ := hT
    unfold KeepsTo
    simp only [Prog.tally]
    rw [if_pos (by omega)]
    show (Oracle.alloc f s n >>= fun r => ((k r.1).tally q (if r.1 = 0 then (Oracle.live s).length else (Oracle.live s).length + 1)).seq (oracle f) r.2) w =
      ((Oracle.alloc f s n >>= fun r => (k r.1).seq (oracle f) r.2) >>= _) w
    rw [bind_assoc]
    refine bind_eq fun r w' e => ?_
    have hl := Oracle.alloc_len e
    have := ih r.1 (hk r.1) (s := r.2) (by right; rw [hl]; split <;> omega) w'
    unfold KeepsTo at this
    rw [hl] at this
    exact this
  | dealloc p n k ih =>
    unfold KeepsTo
    show (Oracle.dealloc s p n >>= fun s' => (k.tally q ((Oracle.live s).length - 1)).seq (oracle f) s') w =
      ((Oracle.dealloc s p n >>= fun s' => k.seq (oracle f) s') >>= _) w
    rw [bind_assoc]
    refine bind_eq fun s' w' e => ?_
    have hl := Oracle.dealloc_len e
    have := ih hT (s := s') (by omega) w'
    unfold KeepsTo at this
    rw [hl] at this
    exact this

theorem KeepsTo.bind {β : Type} {f : Nat → Prop} {q : Nat} {T : Prog α} {g : α → Prog β} {s : (oracle f).St} {w : World} (h : KeepsTo f q T s w)
    (hg : ∀ r w', T.seq (oracle f) s w = .ok r w' → KeepsTo f q (g r.2) r.1 w') : KeepsTo f q (T >>= g) s w := by
  unfold KeepsTo at h ⊢
  rw [Prog.tally_bind, Prog.seq_bind, Prog.seq_bind, M.bind_apply, h, bind_assoc, M.bind_apply, M.bind_apply]
  cases e : T.seq (oracle f) s w with
  | ok r w' => exact hg r w' e
  | oom w' => rfl
  | ub => rfl

theorem tally_untouched {q c : Nat} {A : Allocator} (T : Prog α) (s : A.St) (w : World) (hub : T.seq (untouchable A) s w ≠ .ub) :
    (T.tally q c).seq A s w = (T.seq (untouchable A) s >>= fun r => pure (s, (r.2, c))) w ∧
      ∀ r w', T.seq (untouchable A) s w = .ok r w' → r.1 = s := by
  induction T generalizing w with
  | ret a => exact ⟨rfl, fun r w' e => by cases e; rfl⟩
  | stop => exact ⟨rfl, fun r w' e => by cases e⟩
  | ub => exact absurd rfl hub
  | load p k ih =>
    have e0 : (Prog.load p k).seq (untouchable A) s = M.load p >>= fun v => (k v).seq (untouchable A) s := rfl
    rw [e0] at hub ⊢
    refine ⟨?_, fun r w' e => ?_⟩
    · rw [bind_assoc]
      refine bind_eq fun v w' e => (ih v w' fun h => hub ?_).1
      rw [bind_of_ok e]; exact h
    · obtain ⟨v, w1, e1, e2⟩ := bind_ok e
      rw [bind_of_ok e1] at hub
      exact (ih v w1 hub).2 r w' e2
  | store p v k ih =>
    have e0 : (Prog.store p v k).seq (untouchable A) s = M.store p v >>= fun _ => k.seq (untouchable A) s := rfl
    rw [e0] at hub ⊢
    refine ⟨?_, fun r w' e => ?_⟩
    · rw [bind_assoc]
      refine bind_eq fun v w' e => (ih w' fun h => hub ?_).1
      rw [bind_of_ok e]; exact h
    · obtain ⟨v, w1, e1, e2⟩ := bind_ok e
      rw [bind_of_ok e1] at hub
      exact (ih w1 hub).2 r w' e2
  | alloc n k ih => exact absurd rfl hub
  | dealloc p n k ih => exact absurd rfl hub

theorem KeepsTo.untouched {f : Nat → Prop} {q : Nat} {T : Prog α} {s : (oracle f).St} {w : World}
    (h : T.seq (oracle f) s = T.seq (untouchable (oracle f)) s) (hub : T.seq (oracle f) s w ≠ .ub) : KeepsTo f q T s w := by
  rw [h] at hub
  obtain ⟨h1, h2⟩ := tally_untouched (q := q) (c := (Oracle.live s).length) (A := oracle f) T s w hub
  unfold KeepsTo
  rw [h, h1]
  refine bind_eq fun r w' e => ?_
  have := h2 r w' e
  subst this
  rfl

end

theorem KeepsTo.hstep {α : Type} {f : Nat → Prop} {q : Nat} (E : Elt α) (comp eq : α → α → Bool) (c : THeaps α) (o : BOp α) (s : (oracle f).St)
    (hs : (Oracle.live s).length + 1 ≤ q) (w : World) (hub : (c.step E comp eq o).seq (oracle f) s w ≠ .ub) : KeepsTo f q (c.step E comp eq o) s w := by
  have h1 := Prog.Asks.hstep E comp eq c o
  cases o
  case newList vs =>
    simp only [THeaps.step] at hub ⊢
    rw [Prog.seq_bind, M.bind_apply] at hub
    refine KeepsTo.bind ?_ fun r w' _ => rfl
    have hub : (BHeap.ofListP E comp c.objs vs).seq (oracle f) s w ≠ .ub := by
      intro e
      rw [e] at hub
      exact hub rfl
    unfold BHeap.ofListP at hub ⊢
    rw [Prog.seq_bind, M.bind_apply] at hub
    refine KeepsTo.bind (KeepsTo.asks (Prog.Asks.hofCap (m := 0) E _) (.inr hs) w) fun r w' e => ?_
    rw [e] at hub
    replace hub : (r.2.insertAllP E comp c.objs vs).seq (oracle f) r.1 w' ≠ .ub := hub
    have hr : r.2.size = 0 ∧ r.2.cap = vs.length := by
      rw [BHeap.seq_ofCap] at e
      unfold BHeap.ofCap at e
      obtain ⟨x, w1, _, e2⟩ := bind_ok e
      cases e2
      exact ⟨rfl, rfl⟩
    have h1 := C68_no_allocation_within_capacity E comp (oracle f) r.1 c.objs r.2 vs (by omega)
    exact KeepsTo.untouched (((BHeap.seq_insertAll ..).trans h1).trans (BHeap.seq_insertAll (A := untouchable (oracle f)) ..).symm) hub
  all_goals exact KeepsTo.asks h1 (.inr hs) w

/-- A program in steps, at every point of which one more block is allowed. -/
theorem steps_within {O X : Type} {f : Nat → Prop} {q : Nat} (T : List O → Prog X) (step : X → O → Prog X)
    (h0 : ∃ x, T [] = pure x) (hsnoc : ∀ ops o, T (ops ++ [o]) = T ops >>= fun x => step x o)
    (hstep : ∀ x o (s : (oracle f).St) w1, (Oracle.live s).length + 1 ≤ q → (step x o).seq (oracle f) s w1 ≠ .ub → KeepsTo f q (step x o) s w1)
    (ops : List O) (hspec : ∀ pre, pre <+: ops → ∀ s, Triple ((oracle_sound f).Inv 0 s []) ((T pre).seq (oracle f) s)
      fun r x => ∃ R, R.length + 1 ≤ q ∧ Pool (oracle_sound f) 0 r.1 R x)
    (s0 : (oracle f).St) (hs0 : Oracle.live s0 = []) (w : World) (hw : w.heap = Heap.empty) : KeepsTo f q (T ops) s0 w := by
  have hpre : ∀ pre, pre <+: ops → (T pre).seq (oracle f) s0 w ≠ .ub ∧
      ∀ r w', (T pre).seq (oracle f) s0 w = .ok r w' → (Oracle.live r.1).length + 1 ≤ q := by
    intro pre hp
    have := hspec pre hp s0 w Heap.empty Heap.empty (Heap.disj_empty _) (hw.trans (Heap.add_empty _).symm) ⟨⟨by rw [hs0], by simp⟩, rfl⟩
    refine ⟨fun e => ?_, fun r w' e => ?_⟩
    · rw [e] at this; exact this
    · rw [e] at this
      obtain ⟨⟨x, _, _, R, hR, h1, h2, _, rfl, ⟨⟨hI, _⟩, _⟩, _⟩, _⟩ := this
      have := hI.length_eq
      rw [List.length_map] at this
      exact this ▸ hR
  clear hspec
  induction ops using snocRec with
  | nil =>
    obtain ⟨x, hx⟩ := h0
    rw [hx]; rfl
  | append_singleton ops o ih =>
    have h1 := ih fun pre hp => hpre pre (hp.trans (List.prefix_append _ _))
    have h2 := (hpre _ (List.prefix_refl _)).1
    rw [hsnoc] at h2 ⊢
    refine KeepsTo.bind h1 fun r w' e => ?_
    rw [Prog.seq_bind, M.bind_apply, e] at h2
    exact hstep _ _ _ _ ((hpre ops (List.prefix_append _ _)).2 r w' e) h2

theorem safe_tally {α : Type} {f : Nat → Prop} {q : Nat} {Q : α → Prop} {T : Prog α}
    (hW : ∀ (s : (oracle f).St) w, Oracle.live s = [] → w.heap = Heap.empty → KeepsTo f q T s w)
    (hT : ∀ s, Triple ((oracle_sound f).Inv 0 s []) (T.seq (oracle f) s) (fun r h => Q r.2 ∧ (oracle_sound f).Inv 0 r.1 [] h)) :
    Safe f (fun r => Q r.1) (T.tally q 0) [] := by
  refine safe_of_alone f _ _ [] ⟨Heap.empty, rfl⟩ ⟨[], .nil, fun script w hw => ?_⟩
  have hw : w.heap = Heap.empty := hw
  have e0 := hW (⟨script, []⟩ : Oracle) w rfl hw
  unfold KeepsTo at e0
  replace e0 : (T.tally q 0).seq (oracle f) (⟨script, []⟩ : Oracle) w = _ := e0
  have := hT (⟨script, []⟩ : Oracle) w Heap.empty Heap.empty (Heap.disj_empty _) (hw.trans (Heap.add_empty _).symm) ⟨⟨.nil, by simp⟩, rfl⟩
  rw [e0, M.bind_apply]
  cases e : T.seq (oracle f) (⟨script, []⟩ : Oracle) w with
  | ok r w' =>
    rw [e] at this
    obtain ⟨⟨h', _, _, hq, ⟨hi, _⟩, _⟩, _⟩ := this
    exact ⟨hi.eq_nil, hq⟩
  | oom w' => trivial
  | ub => rw [e] at this; exact this

/-! ### A thread by itself -/

theorem vthread_tally {f : Nat → Prop} (sz : Nat) (hz : 0 < sz) (ops : List VOp)
    (hfit : ∀ n, 0 < n → n ≤ 2 * weights ops → sz * n < W64 ∧ f (sz * n)) (h0 : (∃ o ∈ ops, o.mayBeEmpty = true) → f 0) :
    Safe f (fun r => (∃ S, Seqs.Run sz ⟨[], []⟩ ops S ∧ r.1 = S.seen)) ((vthread sz ops).tally (peakBy VOp.count 0 ops + 1) 0) [] := by
  refine safe_tally (Q := fun a => ∃ S, Seqs.Run sz ⟨[], []⟩ ops S ∧ a = S.seen) (fun s w hs hw => ?_)
    fun s => vthread_alone (oracle_sound f) 0 sz hz ops hfit h0 s
  refine KeepsTo.bind (steps_within (TVecs.run sz ⟨[], []⟩) (fun x o => x.step sz o) ⟨_, rfl⟩ (TVecs.run_snoc sz _)
    (fun x o s w1 h _ => KeepsTo.asks (Prog.Asks.vstep (m := 0) sz x o) (.inr h) w1) ops (fun pre hp s => ?_) s hs w hw) fun r w' e =>
    KeepsTo.asks (m := 0) (Prog.Asks.bind0 (Prog.Asks.vdestroyAll sz _) fun _ => Prog.Asks.pure _) (.inl rfl) w'
  rw [TVecs.seq_run]
  have hW := weights_prefix hp
  refine Triple.bind ((vrun (oracle_sound f) 0 sz (weights pre) hz (fun n h1 h2 => hfit n h1 (by omega)) pre
    (fun ⟨o, ho, he⟩ => h0 ⟨o, hp.subset ho, he⟩) 0 ⟨s, [], []⟩ ⟨[], []⟩ (by omega)).pre fun x hx => ?_) fun c => ?_
  · refine ⟨[], rfl, rfl, rfl, fun g hg => by simp at hg, ?_⟩
    show ((oracle_sound f).Inv 0 s [] ∗ blocksV []) x
    rw [blocksV_nil, star_emp]; exact hx
  · refine Triple.pure _ fun x hx => ?_
    obtain ⟨S, hrun, hx⟩ := hx
    have hl : c.vs.length = S.xs.length := by
      obtain ⟨Γ, h1, h2, _⟩ := hx
      rw [h1, h2, List.length_map, List.length_map]
    obtain ⟨R, hR, hpool⟩ := vinv_blocks hz hx
    obtain ⟨post, rfl⟩ := hp
    have h2 := hrun.peak (post := post) (Nat.zero_le 0)
    exact ⟨R, by have := hR.1; omega, hpool⟩

theorem athread_tally {f : Nat → Prop} (sz : Nat) (hz : 0 < sz) (ops : List ArrOp)
    (hfit : ∀ n, 0 < n → n ≤ 2 * aweights ops → sz * n < W64 ∧ f (sz * n)) (h0 : (∃ o ∈ ops, o.mayBeEmpty = true) → f 0) :
    Safe f (fun r => (∃ S, Seqs.ARun sz ⟨[], []⟩ ops S ∧ r.1 = S.seen)) ((athread sz ops).tally (peakBy ArrOp.count 0 ops + 1) 0) [] := by
  refine safe_tally (Q := fun a => ∃ S, Seqs.ARun sz ⟨[], []⟩ ops S ∧ a = S.seen) (fun s w hs hw => ?_)
    fun s => athread_alone (oracle_sound f) 0 sz hz ops hfit h0 s
  refine KeepsTo.bind (steps_within (TArrs.run sz ⟨[], []⟩) (fun x o => x.step sz o) ⟨_, rfl⟩ (TArrs.run_snoc sz _)
    (fun x o s w1 h _ => KeepsTo.asks (Prog.Asks.astep (m := 0) sz x o) (.inr h) w1) ops (fun pre hp s => ?_) s hs w hw) fun r w' e =>
    KeepsTo.asks (m := 0) (Prog.Asks.bind0 (Prog.Asks.adestroyAll sz _) fun _ => Prog.Asks.pure _) (.inl rfl) w'
  rw [TArrs.seq_run]
  have hW := aweights_prefix hp
  refine Triple.bind ((arun (oracle_sound f) 0 sz (aweights pre) hz (fun n h1 h2 => hfit n h1 (by omega)) pre
    (fun ⟨o, ho, he⟩ => h0 ⟨o, hp.subset ho, he⟩) 0 ⟨s, [], []⟩ ⟨[], []⟩ (by omega)).pre fun x hx => ?_) fun c => ?_
  · refine ⟨[], rfl, rfl, rfl, fun g hg => by simp at hg, ?_⟩
    show ((oracle_sound f).Inv 0 s [] ∗ blocksV []) x
    rw [blocksV_nil, star_emp]; exact hx
  · refine Triple.pure _ fun x hx => ?_
    obtain ⟨S, hrun, hx⟩ := hx
    have hl : c.vecs.vs.length = S.xs.length := by
      obtain ⟨Γ, h1, h2, _⟩ := hx
      rw [h1, h2, List.length_map, List.length_map]
    obtain ⟨R, hR, hpool⟩ := vinv_blocks hz hx
    obtain ⟨post, rfl⟩ := hp
    have h2 := hrun.peak (post := post) (Nat.zero_le 0)
    exact ⟨R, by have := hR.1; omega, hpool⟩

theorem hthread_tally {α : Type} {f : Nat → Prop} {E : Elt α} (hE : E.Ok) (comp eq : α → α → Bool) (ops : List (BOp α))
    (hfit : ∀ n, 0 < n → n ≤ 2 * hweights ops → E.size * n < W64 ∧ f (E.size * n)) (h0 : (∃ o ∈ ops, o.mayBeEmpty = true) → f 0)
    (hpop : E.trivial = true ∨ popsLast [] ops = false) :
    Safe f (fun r => (∃ S, Bags.Run comp eq ⟨[], []⟩ ops S ∧ r.1 = S.seen.map (HObs.bytes E)))
      ((hthread E comp eq ops).tally (peakBy BOp.count 0 ops + 1) 0) [] := by
  refine safe_tally (Q := fun a => ∃ S, Bags.Run comp eq ⟨[], []⟩ ops S ∧ a = S.seen.map (HObs.bytes E)) (fun s w hs hw => ?_)
    fun s => hthread_alone (oracle_sound f) 0 hE comp eq ops hfit h0 hpop s
  refine KeepsTo.bind (steps_within (THeaps.run E comp eq ⟨fun _ => none, [], []⟩) (fun x o => x.step E comp eq o) ⟨_, rfl⟩ (THeaps.run_snoc E comp eq _)
    (fun x o s w1 h hu => KeepsTo.hstep E comp eq x o s h w1 hu) ops (fun pre hp s => ?_) s hs w hw) fun r w' e =>
    KeepsTo.asks (m := 0) (Prog.Asks.bind0 (Prog.Asks.hdestroyAll E _ _) fun _ => Prog.Asks.pure _) (.inl rfl) w'
  rw [THeaps.seq_run]
  have hW := hweights_prefix hp
  refine Triple.bind ((hrun (oracle_sound f) 0 (hweights pre) hE comp eq (fun n h1 h2 => hfit n h1 (by omega)) pre
    (fun ⟨o, ho, he⟩ => h0 ⟨o, hp.subset ho, he⟩) 0 [] (hpop.imp id (popsLast_prefix hp)) ⟨s, fun _ => none, [], []⟩ ⟨[], []⟩ (by omega)).pre fun x hx =>
      ⟨[], rfl, rfl, rfl, rfl, fun g hg => by simp at hg, tpool_start hx⟩) fun c => ?_
  refine Triple.pure _ fun x hx => ?_
  obtain ⟨S, hrun, ns, hx⟩ := hx
  have hl : c.hs.length = S.xs.length := by
    obtain ⟨Γ, h1, h2, _⟩ := hx
    rw [h1, h2, List.length_map, List.length_map]
  obtain ⟨R, hR, hpool⟩ := hinv_blocks hx
  obtain ⟨post, rfl⟩ := hp
  have h2 := hrun.peak (post := post) (Nat.zero_le 0)
  exact ⟨R, by have := hR.1; omega, hpool⟩

theorem Job.tally_safe (t : AllocTy) (hwf : t.WF) (plat : Plat) (j : Job) (h : j.Sane t) (hth : ∀ n, j.requests n → t.Thrifty n) (m : Nat)
    (hm : j.largest ≤ m) : Safe (fun n => t.Fair plat n ∧ n ≤ m) (fun r => j.Sees r.1) (j.prog.tally (j.peak + 1) 0) [] := by
  cases j with
  | vectors sz ops =>
    have hf := h.2.fits hwf h.1 plat
    have hs := h.2.1
    refine vthread_tally sz h.1 ops (fun n h1 h2 => ⟨(hf.1 n h1 h2).1, ⟨(hf.1 n h1 h2).2, ?_, hth _ (.inl ⟨n, h1, h2, rfl⟩)⟩, ?_⟩)
      fun he => ⟨⟨hf.2 he, by omega, hth _ (.inr ⟨rfl, he⟩)⟩, Nat.zero_le _⟩
    · have : sz * n ≤ sz * (2 * weights ops) := Nat.mul_le_mul_left _ h2
      omega
    · exact Nat.le_trans (Nat.mul_le_mul_left _ h2) hm
  | arrays sz ops =>
    have hf := h.2.fits hwf h.1 plat
    have hs := h.2.1
    refine athread_tally sz h.1 ops (fun n h1 h2 => ⟨(hf.1 n h1 h2).1, ⟨(hf.1 n h1 h2).2, ?_, hth _ (.inl ⟨n, h1, h2, rfl⟩)⟩, ?_⟩)
      fun he => ⟨⟨hf.2 he, by omega, hth _ (.inr ⟨rfl, he⟩)⟩, Nat.zero_le _⟩
    · have : sz * n ≤ sz * (2 * aweights ops) := Nat.mul_le_mul_left _ h2
      omega
    · exact Nat.le_trans (Nat.mul_le_mul_left _ h2) hm
  | heaps E comp eq ops =>
    have hf := h.2.1.fits hwf h.1 plat
    have hs := h.2.1.1
    refine hthread_tally h.1 comp eq ops (fun n h1 h2 => ⟨(hf.1 n h1 h2).1, ⟨(hf.1 n h1 h2).2, ?_, hth _ (.inl ⟨n, h1, h2, rfl⟩)⟩, ?_⟩)
      (fun he => ⟨⟨hf.2 he, by omega, hth _ (.inr ⟨rfl, he⟩)⟩, Nat.zero_le _⟩) h.2.2
    · have : E.size * n ≤ E.size * (2 * hweights ops) := Nat.mul_le_mul_left _ h2
      omega
    · exact Nat.le_trans (Nat.mul_le_mul_left _ h2) hm

/-! ### Several threads -/

/-- the same crew over another allocator -/
def Crew.over {α : Type} {A B : Allocator} (φ : A.St → B.St) (c : Crew A α) : Crew B α := ⟨φ c.st, c.threads⟩

theorem Crew.step_below {α : Type} {A B : Allocator} {φ : A.St → B.St} (h : Refines A B φ) (c : Crew A α) (i : Nat) :
    Below (Crew.over φ) (c.step i) ((c.over φ).step i) := by
  unfold Crew.step
  rw [show (c.over φ).threads i = c.threads i from rfl]
  cases c.threads i with
  | ret a => exact Below.pure (Crew.over φ) _ _ rfl
  | stop => exact Below.rfl' rfl
  | ub => exact Below.ub
  | load p k => exact Below.bind (g := Crew.over φ) (Below.refl _) fun v => Below.pure _ _ _ rfl
  | store p v k => exact Below.bind (g := Crew.over φ) (Below.refl _) fun _ => Below.pure _ _ _ rfl
  | alloc n k => exact Below.bind (g := Crew.over φ) (h.alloc c.st n) fun r => Below.pure _ _ _ rfl
  | dealloc p n k => exact Below.bind (g := Crew.over φ) (h.dealloc c.st p n) fun s => Below.pure _ _ _ rfl

theorem Crew.run_below {α : Type} {A B : Allocator} {φ : A.St → B.St} (h : Refines A B φ) (sched : List Nat) (c : Crew A α) :
    Below (Crew.over φ) (c.run sched) ((c.over φ).run sched) := by
  induction sched generalizing c with
  | nil => exact Below.pure _ _ _ rfl
  | cons i is ih => exact Below.bind (Crew.step_below h c i) fun c' => ih c'

theorem crewPlay_below {α : Type} {A B : Allocator} {φ : A.St → B.St} (h : Refines A B φ) (b : Nat) (progs : Nat → Prog α) (sched : List Nat) :
    Below (Crew.over φ) (crewPlay A b progs sched) (crewPlay B b progs sched) :=
  Below.bind (h.init b) fun s => Crew.run_below h sched ⟨s, progs⟩

section
variable {α : Type} {A : Allocator} {f g : Nat → Prop}

/-- Thread `i` has the blocks `R i`, at most `q i`, is safe with them and will not have more. -/
def TInv (hA : Sound A f) (g : Nat → Prop) (b : Nat) (q : Nat → Nat) (Q : Nat → α × Nat → Prop) (l : List Nat) (G : A.St → Prop) (c : Crew A α) : HProp := fun h =>
  ∃ R : Nat → List (Nat × List UInt8), (∀ i, Safe g (Q i) ((c.threads i).tally (q i) (R i).length) (R i) ∧ (R i).length ≤ q i ∧ ∀ x ∈ R i, g x.2.length) ∧
    (∀ i, i ∉ l → R i = []) ∧ G c.st ∧ Pool hA b c.st (l.flatMap R) h

theorem TInv.intro {hA : Sound A f} {b : Nat} {q : Nat → Nat} {Q : Nat → α × Nat → Prop} {l : List Nat} {G : A.St → Prop} {c : Crew A α}
    {R : Nat → List (Nat × List UInt8)}
    (hS : ∀ i, Safe g (Q i) ((c.threads i).tally (q i) (R i).length) (R i) ∧ (R i).length ≤ q i ∧ ∀ x ∈ R i, g x.2.length)
    (hN : ∀ i, i ∉ l → R i = []) (i : Nat) (hi : i ∈ l) (p : Prog α) (s : A.St) (X : List (Nat × List UInt8))
    (hp : Safe g (Q i) (p.tally (q i) X.length) X) (hX : X.length ≤ q i) (hg : ∀ x ∈ X, g x.2.length) (rest : List (Nat × List UInt8))
    (hr : (l.flatMap fun j => if j = i then X else R j).Perm (X ++ rest)) (hG : G s) {h : Heap} (hpool : Pool hA b s (X ++ rest) h) :
    TInv hA g b q Q l G { c.put i p with st := s } h := by
  refine ⟨fun j => if j = i then X else R j, fun j => ?_, fun j hj => ?_, hG, ?_⟩
  · show Safe g (Q j) ((if j = i then p else c.threads j).tally (q j) (if j = i then X else R j).length) (if j = i then X else R j) ∧
      (if j = i then X else R j).length ≤ q j ∧ ∀ x ∈ (if j = i then X else R j), g x.2.length
    by_cases e : j = i
    · subst e; simp only [if_pos]; exact ⟨hp, hX, hg⟩
    · simp only [if_neg e]; exact hS j
  · have : j ≠ i := fun e => hj (e ▸ hi)
    simp only [if_neg this]; exact hN j hj
  · rw [Pool.perm hr]; exact hpool

theorem flatMap_length_sum {β : Type} (l : List Nat) (R : Nat → List β) (q : Nat → Nat) (h : ∀ i, (R i).length ≤ q i) :
    (l.flatMap R).length ≤ (l.map q).sum := by
  induction l with
  | nil => simp
  | cons i l ih =>
    have := h i
    simp only [List.flatMap_cons, List.length_append, List.map_cons, List.sum_cons]
    omega

/-- One step of one thread. -/
theorem tally_step (hA : Sound A f) (hgf : ∀ n, g n → f n) (b : Nat) (q : Nat → Nat) (Q : Nat → α × Nat → Prop) (l : List Nat) (hl : l.Nodup)
    (G : A.St → Prop) (hal : ∀ s L h n, hA.Inv b s L h → g n → G s → L.length + 1 ≤ (l.map q).sum → Post (A.alloc s n) (fun r => G r.2))
    (hde : ∀ s p n, G s → Post (A.dealloc s p n) G) (c : Crew A α) (i : Nat) (hi : i ∈ l) :
    Triple (TInv hA g b q Q l G c) (c.step i) (fun c' => TInv hA g b q Q l G c') := by
  refine Triple.exists fun R => Triple.and fun hS => Triple.and fun hN => Triple.and fun hG => ?_
  obtain ⟨rest, hr1, hr2, _⟩ := flatMap_split l hl i hi R
  obtain ⟨hSi, hqi, hgi⟩ := hS i
  rw [Pool.perm hr1]
  unfold Crew.step
  cases hT : c.threads i with
  | ret a =>
    refine Triple.pure _ fun h hh => ⟨R, hS, hN, hG, ?_⟩
    rw [Pool.perm hr1]; exact hh
  | stop => exact Triple.oom
  | ub => rw [hT] at hSi; exact hSi.elim
  | load p k =>
    rw [hT] at hSi
    obtain ⟨p', bs, v, hm, hq, hv, hk⟩ := hSi
    refine Triple.bind (pool_load hA b c.st _ (List.mem_append_left rest hm) hq hv) fun r => Triple.pure _ fun h hh => ?_
    obtain ⟨rfl, hh⟩ := hh
    exact TInv.intro hS hN i hi (k r) c.st (R i) hk hqi hgi rest (hr2 (R i)) hG hh
  | store p v k =>
    rw [hT] at hSi
    obtain ⟨p', bs, R', hR, hq, hlt, hk⟩ := hSi
    have hlen := hR.length_eq
    refine Triple.bind (pool_store hA b c.st _ (R' ++ rest) v ((hR.append_right rest).trans (.of_eq rfl)) hq hlt) fun r => Triple.pure _ fun h hh => ?_
    refine TInv.intro hS hN i hi k c.st ((p', bs.set (p - p') v) :: R') ?_ ?_ (fun x hx => ?_) rest (hr2 _) hG hh
    · rw [hlen] at hk; exact hk
    · rw [List.length_cons] at hlen ⊢; omega
    · rcases List.mem_cons.1 hx with rfl | hx
      · have := hgi (p', bs) (hR.mem_iff.2 List.mem_cons_self)
        dsimp only
        rw [List.length_set]; exact this
      · exact hgi x (hR.mem_iff.2 (List.mem_cons_of_mem _ hx))
  | alloc n k =>
    rw [hT] at hSi
    simp only [Prog.tally] at hSi
    by_cases hlt : (R i).length < q i
    · rw [if_pos hlt] at hSi
      obtain ⟨hf, hn, hk0, hk⟩ := hSi
      have htot : ((R i ++ rest).map blk).length + 1 ≤ (l.map q).sum := by
        have h1 := flatMap_length_sum l (fun j => if j = i then (0, []) :: R i else R j) q fun j => by
          by_cases e : j = i
          · subst e; simp only [if_pos, List.length_cons]; omega
          · simp only [if_neg e]; exact (hS j).2.1
        rw [(hr2 _).length_eq] at h1
        simp only [List.length_append, List.length_cons, List.length_map] at h1 ⊢
        omega
      refine Triple.bind (Triple.frame (blocksV (R i ++ rest)) (ration_triple (R := fun r => G r.2) (Q' := fun (r : Nat × A.St) h => G r.2 ∧ ((r.1 = 0 ∧ hA.Inv b r.2 ((R i ++ rest).map blk) h) ∨
          (Good r.1 n ∧ (hA.Inv b r.2 ((r.1, n) :: (R i ++ rest).map blk) ∗ bytes r.1 n) h)))
        (hA.alloc_spec b c.st ((R i ++ rest).map blk) n (hgf n hf) hn) (fun h hI => hal c.st _ h n hI hf hG htot)
        fun a h k1 k2 => ⟨k1, k2⟩)) fun r => Triple.pure _ fun h hh => ?_
      obtain ⟨h1, h2, hd, rfl, ⟨hG', (⟨e, hI⟩ | ⟨hg, h3, h4, hd', rfl, hI, hB⟩)⟩, hR⟩ := hh
      · rw [e]
        refine TInv.intro hS hN i hi (k 0) r.2 (R i) ?_ hqi hgi rest (hr2 _) hG' ⟨h1, h2, hd, rfl, hI, hR⟩
        exact hk0
      · obtain ⟨bs, hlen, hV⟩ := bytes_exists hB
        have hd2 := Heap.disj_add_left.1 hd
        have hall : blocksV ((r.1, bs) :: (R i ++ rest)) (h4.add h2) := ⟨h4, h2, hd2.2, rfl, hV, hR⟩
        have hk' := hk r.1 bs hg hlen (by
          have hall : blocksV (((r.1, bs) :: R i) ++ rest) (h4.add h2) := hall
          rw [blocksV_append] at hall
          obtain ⟨a, _, _, _, ha, _⟩ := hall
          exact ⟨a, ha⟩)
        dsimp only at hk'
        rw [if_neg hg.1] at hk'
        refine TInv.intro hS hN i hi (k r.1) r.2 ((r.1, bs) :: R i) hk' (by rw [List.length_cons]; omega) (fun x hx => ?_) rest (hr2 _) hG' ?_
        · rcases List.mem_cons.1 hx with rfl | hx
          · dsimp only; rw [hlen]; exact hf
          · exact hgi x hx
        · refine ⟨h3, h4.add h2, Heap.disj_add_right.2 ⟨hd', hd2.1⟩, Heap.add_assoc _ _ _, ?_, hall⟩
          rw [← hlen] at hI
          exact hI
    · rw [if_neg hlt] at hSi
      exact hSi.elim
  | dealloc p n k =>
    rw [hT] at hSi
    obtain ⟨bs, R', hR, rfl, hk⟩ := hSi
    have hlen := hR.length_eq
    rw [Pool.perm (hR.append_right rest)]
    refine Triple.bind (ration_triple (R := G) (Q' := fun s h => G s ∧ Pool hA b s (R' ++ rest) h) (hA.dealloc_spec b c.st p bs (R' ++ rest))
      (fun _ _ => hde c.st p bs.length hG) fun a h k1 k2 => ⟨k1, k2⟩) fun s => Triple.pure _ fun h hh => ?_
    refine TInv.intro hS hN i hi k s R' ?_ ?_ (fun x hx => hgi x (hR.mem_iff.2 (List.mem_cons_of_mem _ hx))) rest (hr2 _) hh.1 hh.2
    · rw [hlen, List.length_cons, Nat.add_sub_cancel] at hk; exact hk
    · rw [List.length_cons] at hlen; omega

theorem tally_run (hA : Sound A f) (hgf : ∀ n, g n → f n) (b : Nat) (q : Nat → Nat) (Q : Nat → α × Nat → Prop) (l : List Nat) (hl : l.Nodup)
    (G : A.St → Prop) (hal : ∀ s L h n, hA.Inv b s L h → g n → G s → L.length + 1 ≤ (l.map q).sum → Post (A.alloc s n) (fun r => G r.2))
    (hde : ∀ s p n, G s → Post (A.dealloc s p n) G) (sched : List Nat) (hs : ∀ i ∈ sched, i ∈ l) (c : Crew A α) :
    Triple (TInv hA g b q Q l G c) (c.run sched) (fun c' => TInv hA g b q Q l G c') := by
  induction sched generalizing c with
  | nil => exact Triple.pure _ fun _ h => h
  | cons i is ih =>
    exact Triple.bind (tally_step hA hgf b q Q l hl G hal hde c i (hs i List.mem_cons_self)) fun c' => ih (fun j hj => hs j (List.mem_cons_of_mem _ hj)) c'

end

/-- what holds after a run -/
theorem crew_tight (sys : Sys) (t : AllocTy) (hwf : t.WF) (b : Nat) (w : World) (hs : Storage w b t.size)
    (jobs : Nat → Job) (g : Nat → Prop)
    (hg : ∀ i, Safe (fun n => t.Fair sys.plat n ∧ g n) (fun r => (jobs i).Sees r.1) ((jobs i).prog.tally ((jobs i).peak + 1) 0) [])
    (N : Nat) (sched : List Nat) (hsched : ∀ i ∈ sched, i < N) (c : Crew (t.denote sys) (List (List UInt8))) (w' : World)
    (hrun : crewPlay (t.denote sys) b (fun i => (jobs i).prog) sched w = .ok c w') :
    ∃ R : Nat → List (Nat × List UInt8), (∀ i, (∀ xs, c.threads i = .ret xs → R i = []) ∧ ∀ x ∈ R i, g x.2.length) ∧
      ∀ m, (∀ x ∈ (List.range N).flatMap R, x.2.length ≤ m) →
        AtMost (t.holds ((List.range N).map fun i => (jobs i).peak + 1).sum) (t.largest m) fun a n => w'.heap.t a = some n ∧ w.heap.t a ≠ some n := by
  let K := ((List.range N).map fun i => (jobs i).peak + 1).sum
  obtain ⟨g0, hf, hd, he, hb, _, hft⟩ := storage_split hs
  have key : Triple (bytes b (t.book sys).objSize) (crewPlay (t.book sys) b (fun i => (jobs i).prog) sched) fun c =>
      TInv (t.bsound sys hwf) (fun n => t.Fair sys.plat n ∧ g n) b (fun i => (jobs i).peak + 1) (fun i r => (jobs i).Sees r.1) (List.range N)
        (t.Tight sys K) c := by
    refine Triple.bind (ration_triple (R := t.Tight sys K) (Q' := fun s h => t.Tight sys K s ∧ (t.bsound sys hwf).Inv b s [] h)
      ((t.bsound sys hwf).init_spec b hs.1 hs.2.1 (by rw [t.book_size]; exact hs.2.2.1)) (fun _ _ => t.init_tight sys K b) fun a h k1 k2 => ⟨k1, k2⟩)
      fun s => ?_
    refine (tally_run (t.bsound sys hwf) (fun n hn => hn.1.1) b _ _ (List.range N) List.nodup_range (t.Tight sys K) ?_ (fun s p n => t.dealloc_tight sys K s p n)
      sched (fun i hi => List.mem_range.2 (hsched i hi)) _).pre fun h hh => ?_
    · exact fun s L h n hI hg hG hL w r w' e => t.alloc_tight sys K hwf b s L h hI n hg.1.2.1 hg.1.2.2 hG w r w' e fun _ => hL
    · refine ⟨fun _ => [], fun i => ⟨hg i, Nat.zero_le _, fun x hx => by cases hx⟩, fun _ _ => rfl, hh.1, ?_⟩
      have : ((List.range N).flatMap fun _ => ([] : List (Nat × List UInt8))) = [] := by simp
      rw [this]
      show ((t.bsound sys hwf).Inv b s [] ∗ blocksV []) h
      rw [blocksV_nil, star_emp]; exact hh.2
  have h1 := key w g0 hf hd he (by rw [t.book_size]; exact hb)
  rcases crewPlay_below (AllocTy.book_refines sys t) b (fun i => (jobs i).prog) sched w with e | e
  · rw [e] at h1; exact h1.elim
  · rw [hrun] at e
    obtain ⟨c0, w0, e0, e1⟩ := bind_ok e
    cases e1
    rw [e0] at h1
    obtain ⟨⟨x, _, he', R, hR, _, ht, y1, y2, _, rfl, hI, hB⟩, _⟩ := h1
    refine ⟨R, fun i => ⟨fun xs hx => ?_, fun x hx => ((hR i).2.2 x hx).2⟩, fun m hm => ?_⟩
    · have h2 := (hR i).1
      rw [show c0.threads i = .ret xs from hx] at h2
      exact h2.1
    have hlen : (((List.range N).flatMap R).map blk).length ≤ K := by
      rw [List.length_map]
      exact flatMap_length_sum _ _ _ fun i => (hR i).2.1
    obtain ⟨l, hl1, hl2⟩ := t.tight_few sys K hwf b c0.st _ y1 hI ht hlen m (by
      intro x hx
      obtain ⟨y, hy, rfl⟩ := List.mem_map.1 hx
      exact hm y hy)
    refine ⟨l, hl1, fun a n ⟨k1, k2⟩ => ?_⟩
    rw [he', Heap.add_t] at k1
    rcases Option.or_eq_some_iff.1 k1 with k1 | ⟨_, k1⟩
    · rw [Heap.add_t] at k1
      rcases Option.or_eq_some_iff.1 k1 with k1 | ⟨_, k1⟩
      · exact hl2 a n k1
      · rw [blocksV_none hB a] at k1; cases k1
    · rw [hft] at k1
      exact absurd k1 k2

/-- **C102, threads.** Any number `N` of threads share one allocator, each with vectors, arrays or binary heaps of its own. In every
interleaving, at every moment, the process has from `malloc` what it had before and at most `holds k` blocks of at most `largest m`
bytes, where `k` is the sum over the threads of the number of containers the thread has at most at once, plus one for each thread (a
container that grows has two blocks for a moment), and `m` is the largest request. How long the threads run does not matter. -/
theorem C102_threads (sys : Sys) (t : AllocTy) (hwf : t.WF) (_hlock : t.callsAtOnce = true) (b : Nat) (w : World) (hs : Storage w b t.size)
    (jobs : Nat → Job) (hj : ∀ i, (jobs i).Sane t) (hth : ∀ i n, (jobs i).requests n → t.Thrifty n) (m : Nat) (hm : ∀ i, (jobs i).largest ≤ m)
    (N : Nat) (sched : List Nat) (hsched : ∀ i ∈ sched, i < N) (c : Crew (t.denote sys) (List (List UInt8))) (w' : World)
    (hrun : crewPlay (t.denote sys) b (fun i => (jobs i).prog) sched w = .ok c w') :
    AtMost (t.holds ((List.range N).map fun i => (jobs i).peak + 1).sum) (t.largest m) fun a n => w'.heap.t a = some n ∧ w.heap.t a ≠ some n := by
  obtain ⟨R, h1, h2⟩ := crew_tight sys t hwf b w hs jobs (fun n => n ≤ m)
    (fun i => (jobs i).tally_safe t hwf sys.plat (hj i) (hth i) m (hm i)) N sched hsched c w' hrun
  refine h2 m fun x hx => ?_
  obtain ⟨i, _, hx⟩ := List.mem_flatMap.1 hx
  exact (h1 i).2 x hx

/-- **C102, threads in loops.** Threads that repeat their work, each as often as it likes, destroying in each round the containers of
that round: when they have ended, the process has from `malloc` at most `holds k` blocks more than before, where `k` is as in
`C102_threads`, for a single round. -/
theorem C102_threads_any_number_of_rounds (sys : Sys) (t : AllocTy) (hwf : t.WF) (_hlock : t.callsAtOnce = true) (b : Nat) (w : World)
    (hs : Storage w b t.size) (jobs : Nat → Job) (hback : ∀ i, (jobs i).Clears) (k : Nat → Nat) (hj : ∀ i, ((jobs i).rounds (k i)).Sane t)
    (hth : ∀ i n, ((jobs i).rounds (k i)).requests n → t.Thrifty n) (N : Nat) (sched : List Nat) (hsched : ∀ i ∈ sched, i < N)
    (c : Crew (t.denote sys) (List (List UInt8))) (w' : World)
    (hrun : crewPlay (t.denote sys) b (fun i => ((jobs i).rounds (k i)).prog) sched w = .ok c w') (hdone : ∀ i, i < N → ∃ xs, c.threads i = .ret xs) :
    AtMost (t.holds ((List.range N).map fun i => (jobs i).peak + 1).sum) (t.largest 0) fun a n => w'.heap.t a = some n ∧ w.heap.t a ≠ some n := by
  obtain ⟨R, h1, h2⟩ := crew_tight sys t hwf b w hs (fun i => (jobs i).rounds (k i)) (fun _ => True)
    (fun i => by
      have := ((jobs i).rounds (k i)).tally_safe t hwf sys.plat (hj i) (hth i) _ (Nat.le_refl _)
      exact this.mono fun n hn => ⟨hn.1, trivial⟩) N sched hsched c w' hrun
  obtain ⟨l, hl, hl'⟩ := h2 0 fun x hx => by
    obtain ⟨i, hi, hx⟩ := List.mem_flatMap.1 hx
    obtain ⟨xs, hxs⟩ := hdone i (List.mem_range.1 hi)
    rw [(h1 i).1 xs hxs] at hx
    cases hx
  refine ⟨l, Nat.le_trans hl (holds_mono t ?_), hl'⟩
  have : ∀ l : List Nat, (l.map fun i => ((jobs i).rounds (k i)).peak + 1).sum ≤ (l.map fun i => (jobs i).peak + 1).sum := by
    intro l
    induction l with
    | nil => exact Nat.le_refl _
    | cons i l ih =>
      have := (jobs i).rounds_peak (hback i) (k i)
      simp only [List.map_cons, List.sum_cons]
      omega
  exact this _

/-! Non-trivial cases. -/

/-- three threads over recycled blocks behind a mutex -/
def rackJobs (i : Nat) : Job :=
  if i = 0 then .vectors 8 rackBody
  else if i = 1 then .arrays 8 (rackArrs ++ [.destroy 0])
  else .heaps demoElt demoLess (fun a b => a == b) (rackHeaps ++ [.destroy 0])

example : rackTy.callsAtOnce = true ∧ (∀ i n, (rackJobs i).requests n → rackTy.Thrifty n) ∧ (∀ i, (rackJobs i).Clears) ∧
    ((List.range 3).map fun i => (rackJobs i).peak + 1).sum = 10 ∧ rackTy.holds 10 = 10 := by
  refine ⟨rfl, fun i n _ => rackTy_thrifty n, fun i => ?_, by decide, by decide⟩
  unfold rackJobs
  split
  · show _ = _; decide
  · split
    · show _ = _; decide
    · show _ = _; decide

example : ∀ i, (rackJobs i).Sane rackTy ∧ (rackJobs i).largest ≤ 128 := by
  intro i
  unfold rackJobs
  split
  · exact ⟨⟨by decide, by decide, fun _ => rfl⟩, by decide⟩
  · split
    · exact ⟨⟨by decide, by decide, fun _ => rfl⟩, by decide⟩
    · exact ⟨⟨demoElt_ok, ⟨by decide, fun _ => rfl⟩, .inr (by decide)⟩, by decide⟩

/-- The threads take turns, doing their work twice, and end; nine blocks are left, in the list of the freelist. -/
example : (crewPlay (rackTy.denote (demoSys .direct)) 4096 (fun i => ((rackJobs i).rounds 2).prog)
    (List.replicate 500 [0, 1, 2]).flatten (demoWorld rackTy.size)).test (fun c w' =>
      (match c.threads 0, c.threads 1, c.threads 2 with
      | .ret _, .ret _, .ret _ => true
      | _, _, _ => false) &&
      ((List.range 100).filter fun k => (w'.heap.t (0x100000 + k * 0x10000)).isSome).length == 9) = true := by decide +kernel

end KTL
