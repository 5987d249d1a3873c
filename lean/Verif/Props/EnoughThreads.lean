import Verif.Props.Enough

/- C100 for threads over a buffer of fixed size. -/
namespace KTL

section
variable {α : Type} {A : Allocator} {f : Nat → Prop}

/-- What the threads may still request fits: `m` has been used, thread `i` makes at most `left i` requests, each of at most `U`. Proof helper, not code. -/
def Funded (I : Nat → A.St → Prop) (l : List Nat) (U N : Nat) (c : Crew A α) : Prop :=
  ∃ (m : Nat) (left : Nat → Nat), I m c.st ∧ (∀ i, (c.threads i).Asks (left i)) ∧ (∀ i, (c.threads i).Steady) ∧ m + (l.map left).sum * U ≤ N

theorem sum_spend (l : List Nat) (hl : l.Nodup) (i : Nat) (hi : i ∈ l) (left : Nat → Nat) (k : Nat) (hk : left i = k + 1) :
    (l.map left).sum = (l.map fun j => if j = i then k else left j).sum + 1 := by
  induction l with
  | nil => cases hi
  | cons a l ih =>
    have hn := List.nodup_cons.1 hl
    simp only [List.map_cons, List.sum_cons]
    by_cases e : a = i
    · subst e
      have : (l.map fun j => if j = a then k else left j) = l.map left :=
        List.map_congr_left fun j hj => if_neg fun (e : j = a) => hn.1 (e ▸ hj)
      rw [this, if_pos rfl, hk]; omega
    · rw [if_neg e, ih hn.2 ((List.mem_cons.1 hi).resolve_left (Ne.symm e))]; omega

theorem go_funded {b U N : Nat} {I : Nat → A.St → Prop} {hA : Sound A f} (hM : Meter hA b up16 I fun m _ => N < m) (hU : ∀ n, f n → up16 n ≤ U)
    (hmono : ∀ m m' s, I m s → m ≤ m' → I m' s)
    (Q : Nat → α → Prop) (l : List Nat) (hl : l.Nodup) (c : Crew A α) (i : Nat) (hi : i ∈ l) {w w' : World} {c' : Crew A α} {h : Heap}
    (hC : CInv hA b Q l c h) (hS : Funded I l U N c) (e : c.go i w = .ok c' w') : Funded I l U N c' := by
  obtain ⟨m, left, hI, hask, hst, hsum⟩ := hS
  have put : ∀ (p : Prog α) (s : A.St) (P : Nat → Prog α → Prop), P i p → (∀ j, j ≠ i → P j (c.threads j)) → ∀ j, P j (({ c.put i p with st := s } : Crew A α).threads j) := by
    intro p s P hp hall j
    show P j (if j = i then p else c.threads j)
    split
    · rename_i e; rw [e]; exact hp
    · rename_i e; exact hall j e
  have same : ∀ (p : Prog α) (s : A.St), p.Asks (left i) → p.Steady → I m s → Funded I l U N ({ c.put i p with st := s } : Crew A α) := fun p s h1 h2 h3 =>
    ⟨m, left, h3, put p s (fun j q => q.Asks (left j)) h1 (fun j _ => hask j), put p s (fun _ q => q.Steady) h2 (fun j _ => hst j), hsum⟩
  obtain ⟨R, hSafe, _, hPool⟩ := hC
  have hSi := hSafe i
  have hai := hask i
  have hsi := hst i
  unfold Crew.go Crew.step at e
  cases hT : c.threads i with
  | ret a => rw [hT] at e; cases e; exact ⟨m, left, hI, hask, hst, hsum⟩
  | stop => rw [hT] at e; cases e; exact ⟨m, left, hI, hask, hst, hsum⟩
  | ub => rw [hT] at e; cases e
  | load p k =>
    rw [hT] at e hai hsi
    obtain ⟨v, w1, e1, e2⟩ := bind_ok e
    cases e2
    exact same _ c.st (hai v) (hsi v) hI
  | store p v k =>
    rw [hT] at e hai hsi
    obtain ⟨v, w1, e1, e2⟩ := bind_ok e
    cases e2
    exact same _ c.st hai hsi hI
  | alloc n k =>
    rw [hT] at e hSi hai hsi
    obtain ⟨m', hm', hk⟩ := hai
    obtain ⟨r, w1, e1, e2⟩ := bind_ok e
    cases e2
    obtain ⟨x1, x2, _, _, hInv, _⟩ := hPool
    have hme := hM.alloc m c.st _ n w r w' _ hSi.1 hInv hI e1
    have hUn := hU n hSi.1
    have hsp := sum_spend l hl i hi left m' hm'
    rw [hsp, Nat.add_mul, Nat.one_mul] at hsum
    have h0 : r.1 ≠ 0 := fun h0 => by have := hme.2 h0; omega
    exact ⟨m + U, fun j => if j = i then m' else left j, hmono _ _ _ hme.1 (by omega),
      put _ r.2 (fun j q => q.Asks (if j = i then m' else left j)) (by rw [if_pos rfl]; exact hk _) (fun j hj => by rw [if_neg hj]; exact hask j),
      put _ r.2 (fun _ q => q.Steady) (hsi.2 _ h0) (fun j _ => hst j), by omega⟩
  | dealloc p n k =>
    rw [hT] at e hSi hai hsi
    obtain ⟨s, w1, e1, e2⟩ := bind_ok e
    cases e2
    obtain ⟨bs, R', hR, rfl, hk⟩ := hSi
    have hperm : ∃ rest, (l.flatMap R).Perm ((p, bs) :: rest) := by
      have hmem : (p, bs) ∈ l.flatMap R := List.mem_flatMap.2 ⟨i, hi, hR.mem_iff.2 List.mem_cons_self⟩
      exact ⟨_, List.perm_cons_erase hmem⟩
    obtain ⟨rest, hrest⟩ := hperm
    rw [Pool.perm hrest] at hPool
    obtain ⟨x1, x2, _, _, hInv, _⟩ := hPool
    exact same _ s hai hsi (hM.dealloc m c.st _ p _ w s w' _ hInv hI e1)

theorem go_no_oom (ha : ∀ s n w w', A.alloc s n w ≠ .oom w') (hd : ∀ s p n w w', A.dealloc s p n w ≠ .oom w') (c : Crew A α) (i : Nat) (w w' : World)
    : c.go i w ≠ .oom w' := by
  have key : ∀ {β γ : Type} (x : M β) (g : β → γ), (∀ w', x w ≠ .oom w') → (x >>= fun r => (pure (g r) : M γ)) w ≠ .oom w' := by
    intro β γ x g hx
    rw [M.bind_apply]
    cases e : x w with
    | ok r w1 => nofun
    | oom w1 => exact absurd e (hx _)
    | ub => nofun
  unfold Crew.go Crew.step
  cases hT : c.threads i with
  | ret a => nofun
  | stop => nofun
  | ub => nofun
  | load p k => exact key _ _ fun w1 e => by unfold M.load at e; split at e <;> cases e
  | store p v k => exact key _ _ fun w1 e => by unfold M.store at e; split at e <;> cases e
  | alloc n k => exact key _ _ fun w1 => ha _ _ _ _
  | dealloc p n k => exact key _ _ fun w1 => hd _ _ _ _ _

theorem goAll_funded {b U N : Nat} {I : Nat → A.St → Prop} {hA : Sound A f} (hM : Meter hA b up16 I fun m _ => N < m) (hU : ∀ n, f n → up16 n ≤ U)
    (hmono : ∀ m m' s, I m s → m ≤ m' → I m' s) (ha : ∀ s n w w', A.alloc s n w ≠ .oom w') (hd : ∀ s p n w w', A.dealloc s p n w ≠ .oom w')
    (Q : Nat → α → Prop) (l : List Nat) (hl : l.Nodup) (sched : List Nat) (hs : ∀ i ∈ sched, i ∈ l)
    (c : Crew A α) (w : World) (h hf : Heap) (hdj : Heap.disj h hf) (he : w.heap = h.add hf) (hC : CInv hA b Q l c h) (hS : Funded I l U N c) :
    match c.goAll sched w with
    | .ok c' _ => (∃ h', CInv hA b Q l c' h') ∧ Funded I l U N c'
    | .oom _ => False
    | .ub => False := by
  induction sched generalizing c w h with
  | nil => exact ⟨⟨h, hC⟩, hS⟩
  | cons i is ih =>
    have := go_step hA b Q l hl c i (hs i List.mem_cons_self) w h hf hdj he hC
    unfold Crew.goAll
    rw [M.bind_apply]
    cases e : c.go i w with
    | ok c' w' =>
      rw [e] at this
      obtain ⟨⟨h', hd', he', hC'⟩, _⟩ := this
      exact ih (fun j hj => hs j (List.mem_cons_of_mem _ hj)) c' w' h' hd' he' hC'
        (go_funded hM hU hmono Q l hl c i (hs i List.mem_cons_self) hC hS e)
    | oom w' => exact absurd e (go_no_oom ha hd c i w w')
    | ub => rw [e] at this; exact this

end

theorem Meter.threaded {A : Allocator} {f : Nat → Prop} {hA : Sound A f} {b : Nat} {g : Nat → Nat} {I : Nat → A.St → Prop} {Bad : Nat → World → Prop}
    (hM : Meter hA b g I Bad) : Meter (threaded_sound hA) b g I Bad where
  alloc m s L n w r w' _ hf hI := by obtain ⟨h1, _, _, _, hI, _⟩ := hI; exact hM.alloc m s L n w r w' h1 hf hI
  dealloc m s L p n w s' w' _ hI := by obtain ⟨h1, _, _, _, hI, _⟩ := hI; exact hM.dealloc m s L p n w s' w' h1 hI

theorem up16_mono {m n : Nat} (h : m ≤ n) : up16 m ≤ up16 n := by unfold up16; omega

theorem fixed_room_threads {A : Allocator} {N b : Nat} {hA : Sound A fun n => Linear.Fits N n} {I : Nat → A.St → Prop}
    (hM : Meter hA b up16 I fun m _ => N < m) (hI0 : ∀ w s w', A.init b w = .ok s w' → I 0 s) (hmono : ∀ m m' s, I m s → m ≤ m' → I m' s)
    (plat : Plat) (w : World) (hs : Storage w b A.objSize)
    (hi : ∀ w w', A.init b w ≠ .oom w') (ha : ∀ s n w w', A.alloc s n w ≠ .oom w') (hd : ∀ s p n w w', A.dealloc s p n w ≠ .oom w')
    (jobs : Nat → Job) (hj : ∀ i, (jobs i).Sane (.linear N)) (L : Nat) (hL : ∀ i, (jobs i).largest ≤ L) (l sched : List Nat) (hl : l.Nodup)
    (hsched : ∀ i ∈ sched, i ∈ l) (hroom : (l.map fun i => (jobs i).asks).sum * up16 L ≤ N) :
    match goPlay A b (fun i => (jobs i).prog) sched w with
    | .ok c _ => (∀ i xs, c.threads i = .ret xs → (jobs i).Sees xs) ∧ ∀ i, c.threads i ≠ .stop
    | .oom _ => False
    | .ub => False := by
  have hM' := hM.only (g' := fun n => Linear.Fits N n ∧ n ≤ L) fun n h => h.1
  obtain ⟨h0, hf, hdd, he, hb, hfb, hft⟩ := storage_split hs
  have := (hA.fewer (g := fun n => Linear.Fits N n ∧ n ≤ L) fun n h => h.1).init_spec b hs.1 hs.2.1 hs.2.2.1 w h0 hf hdd he hb
  unfold goPlay
  rw [M.bind_apply]
  cases e : A.init b w with
  | ok s w' =>
    rw [e] at this
    obtain ⟨⟨h', hd', he', hI⟩, _⟩ := this
    have hC : CInv (hA.fewer (g := fun n => Linear.Fits N n ∧ n ≤ L) fun n h => h.1) b (fun i => (jobs i).Sees) l ⟨s, fun i => (jobs i).prog⟩ h' := by
      refine ⟨fun _ => [], fun i => ?_, fun _ _ => rfl, ?_⟩
      · exact Safe.mono (fun n h => ⟨h.1, Nat.le_trans (Job.requests_le h.2) (hL i)⟩) ((jobs i).safe_requests (.linear N) trivial plat (hj i))
      · have : (l.flatMap fun _ => ([] : List (Nat × List UInt8))) = [] := by simp
        rw [this]
        show (Sound.Inv _ b s [] ∗ blocksV []) h'
        rw [blocksV_nil, star_emp]; exact hI
    have := goAll_funded hM' (fun n hn => up16_mono hn.2) hmono ha hd _ l hl sched hsched _ w' h' hf hd' he' hC
      ⟨0, fun i => (jobs i).asks, hI0 w s w' e, fun i => (jobs i).asks_prog, fun i => (jobs i).steady, by simpa using hroom⟩
    dsimp only
    cases e2 : Crew.goAll (A := A) ⟨s, fun i => (jobs i).prog⟩ sched w' with
    | ok c w2 =>
      rw [e2] at this
      obtain ⟨⟨h2, R, hS, _⟩, _, _, _, _, hst, _⟩ := this
      refine ⟨fun i xs hx => ?_, fun i hi => ?_⟩
      · have := hS i
        rw [hx] at this
        exact this.2
      · have := hst i
        rw [hi] at this
        exact this
    | oom w2 => rw [e2] at this; exact this
    | ub => rw [e2] at this; exact this
  | oom w' => exact absurd e (hi _ _)
  | ub => rw [e] at this; exact this

/-- **C100, threads and a buffer that is large enough.** Any number of threads `l`, each with containers of its own, over one threaded
`linear_allocator` or `stack_allocator`, under every schedule: if the needs of the threads together, computed before they run, fit in the
buffer, no thread is ever stopped, and every thread that comes to its end has the right result. -/
theorem C100_threads_room_known_beforehand (sys : Sys) (N : Nat) (b : Nat) (w : World) (t : AllocTy) (ht : t = .threaded (.linear N) ∨ t = .threaded (.stack N))
    (hs : Storage w b t.size) (jobs : Nat → Job) (hj : ∀ i, (jobs i).Sane t) (L : Nat) (hL : ∀ i, (jobs i).largest ≤ L) (l sched : List Nat)
    (hl : l.Nodup) (hsched : ∀ i ∈ sched, i ∈ l) (hroom : (l.map fun i => (jobs i).asks).sum * up16 L ≤ N) :
    match goPlay (t.denote sys) b (fun i => (jobs i).prog) sched w with
    | .ok c _ => (∀ i xs, c.threads i = .ret xs → (jobs i).Sees xs) ∧ ∀ i, c.threads i ≠ .stop
    | .oom _ => False
    | .ub => False := by
  rcases ht with rfl | rfl
  · have := fixed_room_threads (A := (AllocTy.threaded (.linear N)).denote sys) (meter_linear N b).threaded (fun w s w' e => by cases e; exact Nat.le_of_eq (Nat.sub_self b))
      (fun _ _ _ h h' => Nat.le_trans h h') sys.plat w hs (fun _ _ => nofun)
      (fun _ _ _ _ => nofun) (fun _ _ _ _ _ => nofun) jobs hj L hL l sched hl hsched hroom
    revert this
    cases goPlay (A := (AllocTy.threaded (.linear N)).denote sys) b (fun i => (jobs i).prog) sched w <;> exact id
  · have := fixed_room_threads (A := (AllocTy.threaded (.stack N)).denote sys) (hA := threaded_sound (stack_sound N)) (meter_stack N b).threaded (fun w s w' e => by cases e; exact Nat.le_of_eq (Nat.sub_self b))
      (fun _ _ _ h h' => Nat.le_trans h h') sys.plat w hs (fun _ _ => nofun)
      (fun _ _ _ _ => nofun) (fun _ _ _ _ _ => nofun) jobs hj L hL l sched hl hsched hroom
    revert this
    cases goPlay (A := (AllocTy.threaded (.stack N)).denote sys) b (fun i => (jobs i).prog) sched w <;> exact id

/-- three threads with the vectors of `enoughOps`, and all the others with nothing -/
def enoughJobs (i : Nat) : Job := if i < 3 then .vectors 2 enoughOps else .vectors 2 []

example : ∀ i, (enoughJobs i).Sane (.threaded (.linear 8192)) := fun i => by
  unfold enoughJobs
  split
  · exact enough_sane (by decide)
  · exact ⟨by decide, by decide, fun ⟨_, h, _⟩ => by cases h⟩
example : ∀ i, (enoughJobs i).largest ≤ 240 := fun i => by
  unfold enoughJobs
  split <;> decide
example : ([0, 1, 2].map fun i => (enoughJobs i).asks).sum * up16 240 ≤ 8192 := by decide
example : Storage (demoWorld (AllocTy.threaded (.linear 8192)).size) 4096 (AllocTy.threaded (.linear 8192)).size := demoStorage _ (by decide)

end KTL
