import Verif.Conc.Threaded

/- C27, C28: `threaded`. -/
namespace KTL

variable {σ ρ κ : Type}

/-- the calls, run one after another without interruption: their results and the final state -/
def replay (C : Calls σ ρ κ) (s : σ) : List κ → List ρ × σ
  | [] => ([], s)
  | c :: cs =>
    let (r, s') := (C.body c).run s
    let (rs, s'') := replay C s' cs
    (r :: rs, s'')

/-- `hist` is what a thread with program `p` can have done: each call is the one `p` asked for then -/
def Follows (p : List (κ × ρ) → Option κ) (hist : List (κ × ρ)) : Prop :=
  ∀ h c r rest, hist = h ++ (c, r) :: rest → p h = some c

/-- A state of the system is explained by running the completed calls of all threads, in the order in which
they completed, one after another from state `s`: every call has returned the same result; the calls of each
thread are in that thread's order, and are the ones its program asks for; and if no call is running the
state is the same, too. -/
structure Sequential (C : Calls σ ρ κ) (prog : Nat → List (κ × ρ) → Option κ) (s : σ) (m : Mach σ ρ κ) : Prop where
  results : (replay C s (m.log.map (·.2.1))).1 = m.log.map (·.2.2)
  state : (∀ t c a, (m.threads t).phase ≠ .running c a) → (replay C s (m.log.map (·.2.1))).2 = m.mem
  order : ∀ t, (m.threads t).hist = (m.log.filter (·.1 == t)).map (·.2)
  follows : ∀ t, Follows (prog t) (m.threads t).hist

/-! ### Helpers -/

theorem replay_append (C : Calls σ ρ κ) (s : σ) (cs ds : List κ) :
    replay C s (cs ++ ds) = ((replay C s cs).1 ++ (replay C (replay C s cs).2 ds).1, (replay C (replay C s cs).2 ds).2) := by
  induction cs generalizing s with
  | nil => rfl
  | cons c cs ih => simp only [List.cons_append, replay, ih]

/-- at most one call is running -/
def Mach.Excl (m : Mach σ ρ κ) : Prop :=
  ∀ t u c d a b, (m.threads t).phase = .running c a → (m.threads u).phase = .running d b → t = u

/-- what `Excl` executions keep -/
structure SeqInv (C : Calls σ ρ κ) (prog : Nat → List (κ × ρ) → Option κ) (s : σ) (m : Mach σ ρ κ) : Prop
    extends Sequential C prog s m where
  now : ∀ t c a, (m.threads t).phase = .running c a → a.run m.mem = (C.body c).run (replay C s (m.log.map (·.2.1))).2
  asked : ∀ t c, (m.threads t).phase = .waiting c ∨ (∃ a, (m.threads t).phase = .running c a) → prog t (m.threads t).hist = some c

theorem put_same (m : Mach σ ρ κ) (t : Nat) (th : TState σ ρ κ) : (m.put t th).threads t = th := by simp [Mach.put]
theorem put_other (m : Mach σ ρ κ) {t u : Nat} (th : TState σ ρ κ) (h : u ≠ t) : (m.put t th).threads u = m.threads u := by
  simp [Mach.put, h]

theorem follows_snoc {p : List (κ × ρ) → Option κ} {h : List (κ × ρ)} {c : κ} (hf : Follows p h) (hc : p h = some c) (r : ρ) :
    Follows p (h ++ [(c, r)]) := by
  intro h' c' r' rest e
  rcases List.append_eq_append_iff.1 e with ⟨l, e1, e2⟩ | ⟨l, e1, e2⟩
  · cases l with
    | nil => simp at e1 e2; obtain ⟨⟨rfl, rfl⟩, rfl⟩ := e2; rw [e1]; exact hc
    | cons x l => simp at e2
  · cases l with
    | nil => simp at e1 e2; obtain ⟨⟨rfl, rfl⟩, rfl⟩ := e2; rw [← e1]; exact hc
    | cons x l =>
      simp only [List.cons_append, List.cons.injEq] at e2
      obtain ⟨rfl, rfl⟩ := e2
      exact hf h' c' r' l e1

theorem seqInv_start (C : Calls σ ρ κ) (prog : Nat → List (κ × ρ) → Option κ) (s : σ) : SeqInv C prog s (Mach.start s) := by
  refine ⟨⟨rfl, fun _ => rfl, fun _ => rfl, ?_⟩, ?_, ?_⟩
  · intro t h c r rest e; simp [Mach.start] at e
  · intro t c a e; simp [Mach.start] at e
  · intro t c e; simp [Mach.start] at e

theorem seqInv_step {C : Calls σ ρ κ} {prog : Nat → List (κ × ρ) → Option κ} {s : σ} {m : Mach σ ρ κ}
    (h : SeqInv C prog s m) (hx : m.Excl) (t : Nat) (hx' : (m.step C prog t).Excl) : SeqInv C prog s (m.step C prog t) := by
  -- a step that only changes the phase of `t`, not leaving a body
  have phase : ∀ ph : Phase σ ρ κ, (∀ c a, (m.threads t).phase ≠ .running c a) →
      (∀ c a, ph = .running c a → a = C.body c ∧ ∀ u d b, (m.threads u).phase ≠ .running d b) →
      (∀ c, ph = .waiting c ∨ (∃ a, ph = .running c a) → prog t (m.threads t).hist = some c) →
      ∀ l, SeqInv C prog s { m.put t ⟨(m.threads t).hist, ph⟩ with lock := l } := by
    intro ph hnr hr ha l
    refine ⟨⟨h.results, ?_, ?_, ?_⟩, ?_, ?_⟩
    · intro hn
      refine h.state (fun u c a => ?_)
      by_cases hu : u = t
      · subst hu; exact hnr c a
      · have := hn u c a
        rwa [show ({ m.put t ⟨(m.threads t).hist, ph⟩ with lock := l } : Mach σ ρ κ).threads u = m.threads u from put_other m _ hu] at this
    · intro u
      by_cases hu : u = t
      · subst hu
        rw [show ({ m.put u ⟨(m.threads u).hist, ph⟩ with lock := l } : Mach σ ρ κ).threads u = _ from put_same m u _]
        exact h.order u
      · rw [show ({ m.put t ⟨(m.threads t).hist, ph⟩ with lock := l } : Mach σ ρ κ).threads u = m.threads u from put_other m _ hu]
        exact h.order u
    · intro u
      by_cases hu : u = t
      · subst hu
        rw [show ({ m.put u ⟨(m.threads u).hist, ph⟩ with lock := l } : Mach σ ρ κ).threads u = _ from put_same m u _]
        exact h.follows u
      · rw [show ({ m.put t ⟨(m.threads t).hist, ph⟩ with lock := l } : Mach σ ρ κ).threads u = m.threads u from put_other m _ hu]
        exact h.follows u
    · intro u c a hp
      by_cases hu : u = t
      · subst hu
        rw [show ({ m.put u ⟨(m.threads u).hist, ph⟩ with lock := l } : Mach σ ρ κ).threads u = _ from put_same m u _] at hp
        obtain ⟨e, hn⟩ := hr c a hp
        subst e
        show (C.body c).run m.mem = _
        rw [← h.state hn]
        rfl
      · rw [show ({ m.put t ⟨(m.threads t).hist, ph⟩ with lock := l } : Mach σ ρ κ).threads u = m.threads u from put_other m _ hu] at hp
        exact h.now u c a hp
    · intro u c hp
      by_cases hu : u = t
      · subst hu
        rw [show ({ m.put u ⟨(m.threads u).hist, ph⟩ with lock := l } : Mach σ ρ κ).threads u = _ from put_same m u _] at hp ⊢
        exact ha c hp
      · rw [show ({ m.put t ⟨(m.threads t).hist, ph⟩ with lock := l } : Mach σ ρ κ).threads u = m.threads u from put_other m _ hu] at hp ⊢
        exact h.asked u c hp
  unfold Mach.step at hx' ⊢
  dsimp only at hx' ⊢
  cases hph : (m.threads t).phase with
  | idle =>
    simp only [hph] at hx' ⊢
    cases hp : prog t (m.threads t).hist with
    | none => exact h
    | some c =>
      exact phase (.waiting c) (by rw [hph]; simp) (by simp) (fun d hd => by
        rcases hd with e | ⟨a, e⟩
        · cases e; exact hp
        · cases e) m.lock
  | waiting c =>
    simp only [hph] at hx' ⊢
    have hask := h.asked t c (Or.inl hph)
    have start : ∀ l, ({ m.put t ⟨(m.threads t).hist, .running c (C.body c)⟩ with lock := l } : Mach σ ρ κ).Excl →
        SeqInv C prog s { m.put t ⟨(m.threads t).hist, .running c (C.body c)⟩ with lock := l } := by
      intro l he
      refine phase _ (by rw [hph]; simp) ?_ (fun d hd => ?_) l
      · intro d a e
        cases e
        refine ⟨rfl, fun u d b hu => ?_⟩
        by_cases hut : u = t
        · subst hut; rw [hph] at hu; cases hu
        · have := he u t d c b (C.body c) ((congrArg _ (put_other m _ hut)).trans hu) (congrArg _ (put_same m t _))
          exact hut this
      · rcases hd with e | ⟨a, e⟩
        · cases e
        · cases e; exact hask
    by_cases hl : C.locked c = true
    · rw [if_pos hl] at hx' ⊢
      cases hm : m.lock with
      | some u => exact h
      | none => simp only [hm] at hx' ⊢; exact start _ hx'
    · rw [if_neg hl] at hx' ⊢
      exact start m.lock hx'
  | running c a =>
    have hask := h.asked t c (Or.inr ⟨a, hph⟩)
    have honly : ∀ u, u ≠ t → ∀ d b, (m.threads u).phase ≠ .running d b := by
      intro u hu d b e
      exact hu (hx u t d c b a e hph)
    cases a with
    | step f k =>
      simp only [hph] at hx' ⊢
      have e0 : ∀ u, u ≠ t → ({ m.put t ⟨(m.threads t).hist, .running c (k m.mem)⟩ with mem := f m.mem } : Mach σ ρ κ).threads u = m.threads u :=
        fun u hu => put_other m _ hu
      have e1 : ({ m.put t ⟨(m.threads t).hist, .running c (k m.mem)⟩ with mem := f m.mem } : Mach σ ρ κ).threads t = ⟨(m.threads t).hist, .running c (k m.mem)⟩ :=
        put_same m t _
      refine ⟨⟨h.results, ?_, ?_, ?_⟩, ?_, ?_⟩
      · intro hn; exact absurd (by rw [e1]) (hn t c (k m.mem))
      · intro u
        by_cases hu : u = t
        · subst hu; rw [e1]; exact h.order u
        · rw [e0 u hu]; exact h.order u
      · intro u
        by_cases hu : u = t
        · subst hu; rw [e1]; exact h.follows u
        · rw [e0 u hu]; exact h.follows u
      · intro u d b hp
        by_cases hu : u = t
        · subst hu
          rw [e1] at hp
          cases hp
          exact h.now u c (.step f k) hph
        · rw [e0 u hu] at hp; exact absurd hp (honly u hu d b)
      · intro u d hp
        by_cases hu : u = t
        · subst hu; rw [e1] at hp ⊢
          rcases hp with e | ⟨a, e⟩
          · cases e
          · cases e; exact hask
        · rw [e0 u hu] at hp ⊢; exact h.asked u d hp
    | done r =>
      simp only [hph] at hx' ⊢
      have hnow : (r, m.mem) = (C.body c).run (replay C s (m.log.map (·.2.1))).2 := h.now t c (.done r) hph
      generalize hlk : (if C.locked c = true then none else m.lock) = l at hx' ⊢
      have e0 : ∀ u, u ≠ t → ({ m.put t ⟨(m.threads t).hist ++ [(c, r)], .idle⟩ with lock := l, log := m.log ++ [(t, c, r)] } : Mach σ ρ κ).threads u = m.threads u :=
        fun u hu => put_other m _ hu
      have e1 : ({ m.put t ⟨(m.threads t).hist ++ [(c, r)], .idle⟩ with lock := l, log := m.log ++ [(t, c, r)] } : Mach σ ρ κ).threads t = ⟨(m.threads t).hist ++ [(c, r)], .idle⟩ :=
        put_same m t _
      have hrep : replay C s ((m.log ++ [(t, c, r)]).map (·.2.1)) = (m.log.map (·.2.2) ++ [r], m.mem) := by
        rw [List.map_append, replay_append, h.results]
        simp only [List.map_cons, List.map_nil, replay, ← hnow]
      refine ⟨⟨?_, ?_, ?_, ?_⟩, ?_, ?_⟩
      · show (replay C s ((m.log ++ [(t, c, r)]).map (·.2.1))).1 = (m.log ++ [(t, c, r)]).map (·.2.2)
        rw [hrep]; simp
      · intro _
        show (replay C s ((m.log ++ [(t, c, r)]).map (·.2.1))).2 = m.mem
        rw [hrep]
      · intro u
        show _ = ((m.log ++ [(t, c, r)]).filter (·.1 == u)).map (·.2)
        by_cases hu : u = t
        · subst hu; rw [e1, List.filter_append, List.map_append, ← h.order u]; simp
        · have : (t == u) = false := by simp; omega
          rw [e0 u hu, List.filter_append, List.map_append, ← h.order u]; simp [this]
      · intro u
        by_cases hu : u = t
        · subst hu; rw [e1]; exact follows_snoc (h.follows u) hask r
        · rw [e0 u hu]; exact h.follows u
      · intro u d b hp
        by_cases hu : u = t
        · subst hu; rw [e1] at hp; cases hp
        · rw [e0 u hu] at hp; exact absurd hp (honly u hu d b)
      · intro u d hp
        by_cases hu : u = t
        · subst hu; rw [e1] at hp
          rcases hp with e | ⟨a, e⟩ <;> cases e
        · rw [e0 u hu] at hp ⊢; exact h.asked u d hp

theorem run_append (C : Calls σ ρ κ) (prog : Nat → List (κ × ρ) → Option κ) (m : Mach σ ρ κ) (s1 s2 : List Nat) :
    m.run C prog (s1 ++ s2) = (m.run C prog s1).run C prog s2 := by
  induction s1 generalizing m with
  | nil => rfl
  | cons t ts ih => exact ih _

/-- exclusive executions are sequential -/
theorem seqInv_run {C : Calls σ ρ κ} {prog : Nat → List (κ × ρ) → Option κ} {s : σ} (sched : List Nat)
    (hx : ∀ pre post, sched = pre ++ post → ((Mach.start s).run C prog pre).Excl) :
    SeqInv C prog s ((Mach.start s).run C prog sched) := by
  suffices ∀ post pre, sched = pre ++ post → SeqInv C prog s ((Mach.start s).run C prog pre) →
      SeqInv C prog s ((Mach.start s).run C prog (pre ++ post)) from this sched [] rfl (seqInv_start C prog s)
  intro post
  induction post with
  | nil => intro pre _ h; simpa using h
  | cons t ts ih =>
    intro pre e h
    have e' : sched = (pre ++ [t]) ++ ts := by simp [e]
    have hr : (Mach.start s).run C prog (pre ++ [t]) = ((Mach.start s).run C prog pre).step C prog t := by
      rw [run_append]; rfl
    have := ih (pre ++ [t]) e' (by
      rw [hr]
      exact seqInv_step h (hx pre _ e) t (by rw [← hr]; exact hx (pre ++ [t]) ts e'))
    simpa using this

/-- the lock is held exactly by the thread that is inside a locked body -/
def Mach.LockInv (C : Calls σ ρ κ) (m : Mach σ ρ κ) : Prop :=
  ∀ t, (∃ c a, (m.threads t).phase = .running c a ∧ C.locked c = true) ↔ m.lock = some t

theorem lockInv_step {C : Calls σ ρ κ} {prog : Nat → List (κ × ρ) → Option κ} {m : Mach σ ρ κ} (h : m.LockInv C) (t : Nat) :
    (m.step C prog t).LockInv C := by
  unfold Mach.step
  dsimp only
  cases hph : (m.threads t).phase with
  | idle =>
    simp only
    cases hp : prog t (m.threads t).hist with
    | none => exact h
    | some c =>
      intro u
      by_cases hu : u = t
      · subst hu
        rw [put_same]
        rw [show (m.put u ⟨(m.threads u).hist, .waiting c⟩).lock = m.lock from rfl, ← h u, hph]
        simp
      · rw [put_other _ _ hu]; exact h u
  | waiting c =>
    simp only
    by_cases hl : C.locked c = true
    · rw [if_pos hl]
      cases hm : m.lock with
      | some u => exact h
      | none =>
        simp only
        intro u
        by_cases hu : u = t
        · subst hu
          refine ⟨fun _ => rfl, fun _ => ⟨c, C.body c, congrArg _ (put_same m u _), hl⟩⟩
        · refine ⟨fun ⟨d, b, e1, e2⟩ => ?_, fun e => absurd (Option.some.inj e).symm hu⟩
          have := (h u).1 ⟨d, b, (congrArg _ (put_other m _ hu)).symm.trans e1, e2⟩
          rw [hm] at this; cases this
    · rw [if_neg hl]
      intro u
      by_cases hu : u = t
      · subst hu
        rw [put_same]
        rw [show (m.put u ⟨(m.threads u).hist, .running c (C.body c)⟩).lock = m.lock from rfl, ← h u, hph]
        refine ⟨fun ⟨d, b, e1, e2⟩ => ?_, fun ⟨d, b, e1, e2⟩ => by cases e1⟩
        cases e1
        exact absurd e2 hl
      · rw [put_other _ _ hu]; exact h u
  | running c a =>
    cases a with
    | step f k =>
      simp only
      intro u
      by_cases hu : u = t
      · subst hu
        rw [show ({ m.put u ⟨(m.threads u).hist, .running c (k m.mem)⟩ with mem := f m.mem } : Mach σ ρ κ).threads u = _ from put_same m u _]
        rw [show ({ m.put u ⟨(m.threads u).hist, .running c (k m.mem)⟩ with mem := f m.mem } : Mach σ ρ κ).lock = m.lock from rfl, ← h u, hph]
        refine ⟨fun ⟨d, b, e1, e2⟩ => ⟨c, _, rfl, ?_⟩, fun ⟨d, b, e1, e2⟩ => ⟨c, _, rfl, ?_⟩⟩
        · cases e1; exact e2
        · cases e1; exact e2
      · rw [show ({ m.put t ⟨(m.threads t).hist, .running c (k m.mem)⟩ with mem := f m.mem } : Mach σ ρ κ).threads u = m.threads u from put_other m _ hu]
        exact h u
    | done r =>
      simp only
      intro u
      by_cases hu : u = t
      · subst hu
        rw [show ({ m.put u ⟨(m.threads u).hist ++ [(c, r)], .idle⟩ with lock := if C.locked c then none else m.lock, log := m.log ++ [(u, c, r)] } : Mach σ ρ κ).threads u = _ from put_same m u _]
        refine ⟨fun ⟨d, b, e1, e2⟩ => (by cases e1), fun e => ?_⟩
        replace e : (if C.locked c then none else m.lock) = some u := e
        by_cases hl : C.locked c = true
        · rw [if_pos hl] at e; cases e
        · rw [if_neg hl] at e
          obtain ⟨d, b, e1, e2⟩ := (h u).2 e
          rw [hph] at e1; cases e1
          exact absurd e2 hl
      · rw [show ({ m.put t ⟨(m.threads t).hist ++ [(c, r)], .idle⟩ with lock := if C.locked c then none else m.lock, log := m.log ++ [(t, c, r)] } : Mach σ ρ κ).threads u = m.threads u from put_other m _ hu]
        show _ ↔ (if C.locked c then none else m.lock) = some u
        by_cases hl : C.locked c = true
        · rw [if_pos hl]
          have ht := (h t).1 ⟨c, _, hph, hl⟩
          rw [h u, ht]
          simp; omega
        · rw [if_neg hl]; exact h u

theorem lockInv_run {C : Calls σ ρ κ} {prog : Nat → List (κ × ρ) → Option κ} {m : Mach σ ρ κ} (h : m.LockInv C) (sched : List Nat) :
    (m.run C prog sched).LockInv C := by
  induction sched generalizing m with
  | nil => exact h
  | cons t ts ih => exact ih (lockInv_step h t)

theorem lockInv_start (C : Calls σ ρ κ) (s : σ) : (Mach.start s : Mach σ ρ κ).LockInv C := by
  intro t; simp [Mach.start]

theorem log_step (C : Calls σ ρ κ) (prog : Nat → List (κ × ρ) → Option κ) (m : Mach σ ρ κ) (t : Nat) :
    m.log <+: (m.step C prog t).log := by
  unfold Mach.step
  dsimp only
  cases hph : (m.threads t).phase with
  | idle => simp only; split <;> exact List.prefix_refl _
  | waiting c =>
    simp only
    split
    · split <;> exact List.prefix_refl _
    · exact List.prefix_refl _
  | running c a =>
    cases a with
    | step f k => exact List.prefix_refl _
    | done r => exact ⟨[(t, c, r)], rfl⟩

/-- calls that complete later come later in the log -/
theorem log_grows (C : Calls σ ρ κ) (prog : Nat → List (κ × ρ) → Option κ) (m : Mach σ ρ κ) (sched : List Nat) :
    m.log <+: (m.run C prog sched).log := by
  induction sched generalizing m with
  | nil => exact List.prefix_refl _
  | cons t ts ih => exact List.IsPrefix.trans (log_step C prog m t) (ih _)

/-! ### The properties -/

/-- **C27.** Any number of threads call `allocate` and `deallocate` (any calls that hold the lock) of one
`threaded` object; the bodies are arbitrary sequences of accesses to the underlying allocator and its memory,
and what a thread calls next may depend on the results it got. In every schedule, running the completed calls
one after another in the order in which they completed gives every call the same result and leaves the same
state; each thread's calls are in its own order. (A call that completed before another one began is earlier in
that order: the log only grows.) -/
theorem C27_threaded_is_atomic (C : Calls σ ρ κ) (hC : ∀ c, C.locked c = true)
    (prog : Nat → List (κ × ρ) → Option κ) (s : σ) (sched : List Nat) :
    Sequential C prog s ((Mach.start s).run C prog sched) ∧
    ∀ pre post, sched = pre ++ post → ((Mach.start s).run C prog pre).log <+: ((Mach.start s).run C prog sched).log := by
  refine ⟨(seqInv_run sched fun pre post _ => ?_).toSequential, fun pre post e => ?_⟩
  · intro t u c d a b ht hu
    have hl := lockInv_run (prog := prog) (lockInv_start C s) pre
    have h1 := (hl t).1 ⟨c, a, ht, hC c⟩
    have h2 := (hl u).1 ⟨d, b, hu, hC d⟩
    rw [h1] at h2
    exact Option.some.inj h2
  · rw [e, run_append]; exact log_grows ..

theorem finish_body (C : Calls σ ρ κ) (prog : Nat → List (κ × ρ) → Option κ) (t : Nat) (c : κ) (a : Act σ ρ) (m : Mach σ ρ κ)
    (h : (m.threads t).phase = .running c a) :
    ∃ k r, (m.run C prog (List.replicate k t)).threads t = ⟨(m.threads t).hist ++ [(c, r)], .idle⟩ ∧
      (C.locked c = true → (m.run C prog (List.replicate k t)).lock = none) ∧
      ∀ u, u ≠ t → (m.run C prog (List.replicate k t)).threads u = m.threads u := by
  induction a generalizing m with
  | done r =>
    have e : m.step C prog t = { m.put t ⟨(m.threads t).hist ++ [(c, r)], .idle⟩ with
      lock := if C.locked c then none else m.lock
      log := m.log ++ [(t, c, r)] } := by
      unfold Mach.step; simp only [h]
    refine ⟨1, r, ?_, ?_, ?_⟩
    · show (m.step C prog t).threads t = _
      rw [e]; exact put_same m t _
    · intro hl
      show (m.step C prog t).lock = none
      rw [e]; exact if_pos hl
    · intro u hu
      show (m.step C prog t).threads u = _
      rw [e]; exact put_other m _ hu
  | step f k ih =>
    have e : m.step C prog t = { m.put t ⟨(m.threads t).hist, .running c (k m.mem)⟩ with mem := f m.mem } := by
      unfold Mach.step; simp only [h]
    have e1 : (m.step C prog t).threads t = ⟨(m.threads t).hist, .running c (k m.mem)⟩ := by rw [e]; exact put_same m t _
    obtain ⟨n, r, h1, h2, h3⟩ := ih m.mem (m.step C prog t) (by rw [e1])
    refine ⟨n + 1, r, ?_, h2, fun u hu => ?_⟩
    · show ((m.step C prog t).run C prog (List.replicate n t)).threads t = _
      rw [h1, e1]
    · show ((m.step C prog t).run C prog (List.replicate n t)).threads u = _
      rw [h3 u hu, e]; exact put_other m _ hu

/-- No deadlock: in every reachable state, a thread that has made a call can still complete it (the thread that
holds the lock can finish and release it). -/
theorem C27_no_deadlock (C : Calls σ ρ κ) (prog : Nat → List (κ × ρ) → Option κ) (s : σ) (sched : List Nat) (t : Nat) (c : κ)
    (hw : (((Mach.start s).run C prog sched).threads t).phase = .waiting c) :
    ∃ more r, (((Mach.start s).run C prog (sched ++ more)).threads t).hist =
      (((Mach.start s).run C prog sched).threads t).hist ++ [(c, r)] := by
  have hl := lockInv_run (prog := prog) (lockInv_start C s) sched
  generalize hm : (Mach.start s).run C prog sched = m at hw hl
  -- first release the lock
  have h1 : ∃ more, (m.run C prog more).threads t = m.threads t ∧ (m.run C prog more).lock = none := by
    cases hlk : m.lock with
    | none => exact ⟨[], rfl, hlk⟩
    | some u =>
      obtain ⟨d, a, e1, e2⟩ := (hl u).2 hlk
      have hut : t ≠ u := by intro e; subst e; rw [hw] at e1; cases e1
      obtain ⟨k, r, g1, g2, g3⟩ := finish_body C prog u d a m e1
      exact ⟨_, g3 t hut, g2 e2⟩
  obtain ⟨more, g1, g2⟩ := h1
  generalize hm' : m.run C prog more = m' at g1 g2
  have h2 : ∃ th, (m'.step C prog t).threads t = th ∧ th.hist = (m.threads t).hist ∧ th.phase = .running c (C.body c) := by
    have hph : (m'.threads t).phase = .waiting c := by rw [g1]; exact hw
    unfold Mach.step
    simp only [hph]
    by_cases hlc : C.locked c = true
    · simp only [hlc, if_true, g2]
      exact ⟨_, put_same m' t _, by simp [g1], rfl⟩
    · simp only [hlc]
      exact ⟨_, put_same m' t _, by simp [g1], rfl⟩
  obtain ⟨th, e1, e2, e3⟩ := h2
  obtain ⟨k, r, g3, _, _⟩ := finish_body C prog t c (C.body c) (m'.step C prog t) (by rw [e1]; exact e3)
  refine ⟨more ++ t :: List.replicate k t, r, ?_⟩
  rw [run_append, hm, run_append, hm']
  show ((((m'.step C prog t).run C prog (List.replicate k t))).threads t).hist = _
  rw [g3, e1, e2]

/-! ### construct and destroy -/

/-- The calls of a `threaded<overflow<…>>` that matter here: `construct` increments `m_Constructs`
(`allocators/overflow.h`), which is a read followed by a write, and does not hold the lock
(`allocators/threaded.h:77-95`). `allocate` increments `m_Allocs` under the lock. The state is
`(m_Allocs, m_Constructs)`. -/
inductive OCall where
  | allocate | construct
  deriving DecidableEq

def overflowCalls : Calls (Int × Int) Unit OCall where
  body
    | .allocate => .step id fun s => .step (fun s' => (s.1 + 1, s'.2)) fun _ => .done ()
    | .construct => .step id fun s => .step (fun s' => (s'.1, s.2 + 1)) fun _ => .done ()
  locked
    | .allocate => true
    | .construct => false

/-- **C28 is false.** Two threads construct one object each through a `threaded<overflow<…>>`. There is a
schedule after which both calls are complete and the counter says 1; in every sequential order it would say 2.
(By the C++ standard this is a data race, hence undefined behaviour.) -/
theorem C28_false :
    let prog : Nat → List (OCall × Unit) → Option OCall := fun t h => if t < 2 ∧ h = [] then some .construct else none
    let m := (Mach.start (0, 0)).run overflowCalls prog [0, 1, 0, 1, 0, 1, 0, 1, 0, 1]
    (m.threads 0).hist = [(.construct, ())] ∧ (m.threads 1).hist = [(.construct, ())] ∧ m.mem = (0, 1) ∧
    (replay overflowCalls (0, 0) [.construct, .construct]).2 = (0, 2) := by
  decide

/-- **C28, what does hold.** If the program itself makes sure that a call which does not take the lock
(`construct`, `destroy`, `owns`, `max_size`) never runs while another call runs, every schedule is equivalent to
the sequential order of completion, as in C27.

Missing from the full statement: concurrent `construct`/`destroy`, see `C28_false`. -/
theorem C28_exclusive_construct_partial (C : Calls σ ρ κ) (prog : Nat → List (κ × ρ) → Option κ) (s : σ) (sched : List Nat)
    (hex : ∀ pre post, sched = pre ++ post → ∀ t u c d a b,
      (((Mach.start s).run C prog pre).threads t).phase = .running c a → C.locked c = false →
      (((Mach.start s).run C prog pre).threads u).phase = .running d b → t = u) :
    Sequential C prog s ((Mach.start s).run C prog sched) := by
  refine (seqInv_run sched fun pre post e => ?_).toSequential
  intro t u c d a b ht hu
  by_cases hc : C.locked c = true
  · by_cases hd : C.locked d = true
    · have hl := lockInv_run (prog := prog) (lockInv_start C s) pre
      have h1 := (hl t).1 ⟨c, a, ht, hc⟩
      have h2 := (hl u).1 ⟨d, b, hu, hd⟩
      rw [h1] at h2
      exact Option.some.inj h2
    · exact (hex pre post e u t d c b a hu (by simpa using hd) ht).symm
  · exact hex pre post e t u c d a b ht (by simpa using hc) hu

/-! ### Non-vacuity -/

/-- the same counter, with the lock held: two concurrent increments are both counted -/
example :
    let C : Calls (Int × Int) Unit OCall := { overflowCalls with locked := fun _ => true }
    let prog : Nat → List (OCall × Unit) → Option OCall := fun t h => if t < 2 ∧ h = [] then some .construct else none
    let m := (Mach.start (0, 0)).run C prog [0, 1, 0, 1, 0, 1, 0, 1, 0, 1, 1, 1, 1]
    m.mem = (0, 2) ∧ m.log.map (·.1) = [0, 1] := by
  decide

theorem step_other (C : Calls σ ρ κ) (prog : Nat → List (κ × ρ) → Option κ) (m : Mach σ ρ κ) {t u : Nat} (h : u ≠ t) :
    (m.step C prog t).threads u = m.threads u := by
  unfold Mach.step
  dsimp only
  cases hph : (m.threads t).phase with
  | idle =>
    simp only; split
    · rfl
    · exact put_other m _ h
  | waiting c =>
    simp only
    split
    · split
      · rfl
      · exact put_other m _ h
    · exact put_other m _ h
  | running c a =>
    cases a with
    | step f k => exact put_other m _ h
    | done r => exact put_other m _ h

theorem stays_idle (C : Calls σ ρ κ) (prog : Nat → List (κ × ρ) → Option κ) {t : Nat} (hp : ∀ h, prog t h = none) (sched : List Nat)
    (m : Mach σ ρ κ) (hi : (m.threads t).phase = .idle) : ((m.run C prog sched).threads t).phase = .idle := by
  induction sched generalizing m with
  | nil => exact hi
  | cons u us ih =>
    refine ih _ ?_
    by_cases hu : t = u
    · subst hu
      unfold Mach.step
      simp only [hi, hp]
    · rw [step_other C prog m hu]; exact hi

def Phase.isRunning : Phase σ ρ κ → Bool
  | .running _ _ => true
  | _ => false

/-- two threads, one `construct` each -/
def twoConstructs : Nat → List (OCall × Unit) → Option OCall := fun t h => if t < 2 ∧ h = [] then some .construct else none

/-- a schedule in which the two `construct` calls do not overlap meets the hypothesis of the partial result -/
example : ∀ pre post, [0, 1, 0, 0, 0, 0, 1, 1, 1, 1] = pre ++ post → ∀ t u c d a b,
      (((Mach.start (0, 0)).run overflowCalls twoConstructs pre).threads t).phase = .running c a → overflowCalls.locked c = false →
      (((Mach.start (0, 0)).run overflowCalls twoConstructs pre).threads u).phase = .running d b → t = u := by
  intro pre post e t u c d a b ht _ hu
  have hlt : ∀ v c a, (((Mach.start (0, 0)).run overflowCalls twoConstructs pre).threads v).phase = .running c a → v < 2 := by
    intro v c a hv
    by_cases h2 : v < 2
    · exact h2
    · rw [stays_idle overflowCalls twoConstructs (t := v) (by intro h; simp [twoConstructs, h2]) pre _ rfl] at hv
      cases hv
  have hall : ∀ k < 11, ¬ ((((Mach.start (0, 0)).run overflowCalls twoConstructs ([0, 1, 0, 0, 0, 0, 1, 1, 1, 1].take k)).threads 0).phase.isRunning = true ∧
      (((Mach.start (0, 0)).run overflowCalls twoConstructs ([0, 1, 0, 0, 0, 0, 1, 1, 1, 1].take k)).threads 1).phase.isRunning = true) := by decide
  have hlen : pre.length < 11 := by
    have := congrArg List.length e
    simp at this; omega
  have htake : [0, 1, 0, 0, 0, 0, 1, 1, 1, 1].take pre.length = pre := by rw [e]; simp
  have := hall pre.length hlen
  rw [htake] at this
  have h1 := hlt t c a ht
  have h2 := hlt u d b hu
  rcases (by omega : t = u ∨ (t = 0 ∧ u = 1) ∨ (t = 1 ∧ u = 0)) with h | ⟨h, h'⟩ | ⟨h, h'⟩
  · exact h
  · subst h h'; exact absurd ⟨by rw [ht]; rfl, by rw [hu]; rfl⟩ this
  · subst h h'; exact absurd ⟨by rw [hu]; rfl, by rw [ht]; rfl⟩ this

end KTL
