import Verif.Props.Threaded

/- Calls of a `threaded` object that do not take the lock and only read: the general part of C73. -/
namespace KTL

variable {σ ρ κ : Type}

/-- no access of the call writes anything -/
def Act.Quiet : Act σ ρ → Prop
  | .done _ => True
  | .step f k => (∀ s, f s = s) ∧ ∀ s, (k s).Quiet

/-- every access of the call leads to a state that is related by `R` to the one before -/
def Act.Keeps (R : σ → σ → Prop) : Act σ ρ → Prop
  | .done _ => True
  | .step f k => (∀ s, R s (f s)) ∧ ∀ s, (k s).Keeps R

/-- if the call finds only states with `G`, its result is `r` -/
def Act.Answers (G : σ → Prop) (r : ρ) : Act σ ρ → Prop
  | .done r' => r' = r
  | .step _ k => ∀ s, G s → (k s).Answers G r

/-- the completed calls that held the lock -/
def Mach.lockedLog (C : Calls σ ρ κ) (m : Mach σ ρ κ) : List (Nat × κ × ρ) := m.log.filter fun x => C.locked x.2.1

/-- what the calls that held the lock have made of the state -/
def Mach.settled (C : Calls σ ρ κ) (s : σ) (m : Mach σ ρ κ) : σ := (replay C s ((m.lockedLog C).map (·.2.1))).2

structure QuietInv (C : Calls σ ρ κ) (prog : Nat → List (κ × ρ) → Option κ) (s : σ) (R : σ → σ → Prop) (G : σ → Prop) (ans : κ → ρ) (m : Mach σ ρ κ) : Prop where
  lock : m.LockInv C
  results : (replay C s ((m.lockedLog C).map (·.2.1))).1 = (m.lockedLog C).map (·.2.2)
  state : (∀ t c a, (m.threads t).phase = .running c a → C.locked c = false) → m.settled C s = m.mem
  now : ∀ t c a, (m.threads t).phase = .running c a → C.locked c = true → a.run m.mem = (C.body c).run (m.settled C s) ∧ a.Keeps R
  quiet : ∀ t c a, (m.threads t).phase = .running c a → C.locked c = false → a.Quiet ∧ (G m.mem → a.Answers G (ans c))
  order : ∀ t, (m.threads t).hist = (m.log.filter (·.1 == t)).map (·.2)
  follows : ∀ t, Follows (prog t) (m.threads t).hist
  asked : ∀ t c, (m.threads t).phase = .waiting c ∨ (∃ a, (m.threads t).phase = .running c a) → prog t (m.threads t).hist = some c
  told : ∀ x ∈ m.log, C.locked x.2.1 = false → G m.mem → x.2.2 = ans x.2.1
  past : R s (m.settled C s)
  present : R (m.settled C s) m.mem

variable {C : Calls σ ρ κ} {prog : Nat → List (κ × ρ) → Option κ} {s : σ} {R : σ → σ → Prop} {G : σ → Prop} {ans : κ → ρ}

theorem quietInv_start (hrefl : ∀ a, R a a) : QuietInv C prog s R G ans (Mach.start s) := by
  refine ⟨lockInv_start C s, rfl, fun _ => rfl, ?_, ?_, fun _ => rfl, ?_, ?_, ?_, hrefl _, hrefl _⟩
  · intro t c a e; simp [Mach.start] at e
  · intro t c a e; simp [Mach.start] at e
  · intro t h c r rest e; simp [Mach.start] at e
  · intro t c e; simp [Mach.start] at e
  · intro x hx; simp [Mach.start] at hx

theorem quietInv_step (hrefl : ∀ a, R a a) (htrans : ∀ a b c, R a b → R b c → R a c) (hG : ∀ a b, R a b → G b → G a)
    (hq : ∀ t h c, prog t h = some c → C.locked c = false → (C.body c).Quiet ∧ (C.body c).Answers G (ans c))
    (hk : ∀ t h c, prog t h = some c → C.locked c = true → (C.body c).Keeps R)
    {m : Mach σ ρ κ} (h : QuietInv C prog s R G ans m) (t : Nat) : QuietInv C prog s R G ans (m.step C prog t) := by
  have hlock := lockInv_step (prog := prog) h.lock t
  -- a step that only changes the phase of `t`, not leaving a body
  have phase : ∀ (ph : Phase σ ρ κ) l, ({ m.put t ⟨(m.threads t).hist, ph⟩ with lock := l } : Mach σ ρ κ).LockInv C →
      (∀ c a, (m.threads t).phase ≠ .running c a) →
      (∀ c a, ph = .running c a → a = C.body c ∧ (C.locked c = true → m.lock = none)) →
      (∀ c, ph = .waiting c ∨ (∃ a, ph = .running c a) → prog t (m.threads t).hist = some c) →
      QuietInv C prog s R G ans { m.put t ⟨(m.threads t).hist, ph⟩ with lock := l } := by
    intro ph l hl hnr hr ha
    have e0 : ∀ u, u ≠ t → ({ m.put t ⟨(m.threads t).hist, ph⟩ with lock := l } : Mach σ ρ κ).threads u = m.threads u := fun u hu => put_other m _ hu
    have e1 : ({ m.put t ⟨(m.threads t).hist, ph⟩ with lock := l } : Mach σ ρ κ).threads t = ⟨(m.threads t).hist, ph⟩ := put_same m t _
    refine ⟨hl, h.results, ?_, ?_, ?_, ?_, ?_, ?_, h.told, h.past, h.present⟩
    · intro hn
      refine h.state (fun u c a hp => ?_)
      by_cases hu : u = t
      · subst hu; exact absurd hp (hnr c a)
      · exact hn u c a (by rw [e0 u hu]; exact hp)
    · intro u c a hp hc
      by_cases hu : u = t
      · subst hu
        rw [e1] at hp
        obtain ⟨e, hn⟩ := hr c a hp
        subst e
        refine ⟨?_, hk u _ c (ha c (.inr ⟨_, hp⟩)) hc⟩
        show (C.body c).run m.mem = (C.body c).run (m.settled C s)
        rw [h.state fun v d b hv => by
          cases hd : C.locked d with
          | false => rfl
          | true =>
            have := (h.lock v).1 ⟨d, b, hv, hd⟩
            rw [hn hc] at this; cases this]
      · rw [e0 u hu] at hp
        exact h.now u c a hp hc
    · intro u c a hp hc
      by_cases hu : u = t
      · subst hu
        rw [e1] at hp
        obtain ⟨e, hn⟩ := hr c a hp
        subst e
        obtain ⟨g1, g2⟩ := hq u _ c (ha c (.inr ⟨_, hp⟩)) hc
        exact ⟨g1, fun _ => g2⟩
      · rw [e0 u hu] at hp
        exact h.quiet u c a hp hc
    · intro u
      by_cases hu : u = t
      · subst hu; rw [e1]; exact h.order u
      · rw [e0 u hu]; exact h.order u
    · intro u
      by_cases hu : u = t
      · subst hu; rw [e1]; exact h.follows u
      · rw [e0 u hu]; exact h.follows u
    · intro u c hp
      by_cases hu : u = t
      · subst hu; rw [e1] at hp ⊢; exact ha c hp
      · rw [e0 u hu] at hp ⊢; exact h.asked u c hp
  unfold Mach.step at hlock ⊢
  dsimp only at hlock ⊢
  cases hph : (m.threads t).phase with
  | idle =>
    simp only [hph] at hlock ⊢
    cases hp : prog t (m.threads t).hist with
    | none => exact h
    | some c =>
      simp only [hp] at hlock ⊢
      exact phase (.waiting c) m.lock hlock (by rw [hph]; simp) (by simp) (fun d hd => by
        rcases hd with e | ⟨a, e⟩
        · cases e; exact hp
        · cases e)
  | waiting c =>
    simp only [hph] at hlock ⊢
    have hask := h.asked t c (Or.inl hph)
    by_cases hl : C.locked c = true
    · rw [if_pos hl] at hlock ⊢
      cases hm : m.lock with
      | some u => exact h
      | none =>
        simp only [hm] at hlock ⊢
        refine phase (.running c (C.body c)) (some t) hlock (by rw [hph]; simp) (fun d a e => ?_) (fun d hd => ?_)
        · cases e; exact ⟨rfl, fun _ => hm⟩
        · rcases hd with e | ⟨a, e⟩
          · cases e
          · cases e; exact hask
    · rw [if_neg hl] at hlock ⊢
      refine phase (.running c (C.body c)) m.lock hlock (by rw [hph]; simp) (fun d a e => ?_) (fun d hd => ?_)
      · cases e; exact ⟨rfl, fun h => absurd h hl⟩
      · rcases hd with e | ⟨a, e⟩
        · cases e
        · cases e; exact hask
  | running c a =>
    have hask := h.asked t c (Or.inr ⟨a, hph⟩)
    have honly : C.locked c = true → ∀ u, u ≠ t → ∀ d b, (m.threads u).phase = .running d b → C.locked d = false := by
      intro hc u hu d b e
      cases hd : C.locked d with
      | false => rfl
      | true =>
        have h1 := (h.lock t).1 ⟨c, a, hph, hc⟩
        have h2 := (h.lock u).1 ⟨d, b, e, hd⟩
        rw [h1] at h2
        exact absurd (Option.some.inj h2).symm hu
    cases a with
    | step f k =>
      simp only [hph] at hlock ⊢
      have hR : R m.mem (f m.mem) ∧ (C.locked c = false → f m.mem = m.mem) := by
        cases hc : C.locked c with
        | true => exact ⟨(h.now t c _ hph hc).2.1 _, fun e => by cases e⟩
        | false =>
          have := (h.quiet t c _ hph hc).1.1 m.mem
          exact ⟨by rw [this]; exact hrefl _, fun _ => this⟩
      have e0 : ∀ u, u ≠ t → ({ m.put t ⟨(m.threads t).hist, .running c (k m.mem)⟩ with mem := f m.mem } : Mach σ ρ κ).threads u = m.threads u :=
        fun u hu => put_other m _ hu
      have e1 : ({ m.put t ⟨(m.threads t).hist, .running c (k m.mem)⟩ with mem := f m.mem } : Mach σ ρ κ).threads t = ⟨(m.threads t).hist, .running c (k m.mem)⟩ :=
        put_same m t _
      refine ⟨hlock, h.results, ?_, ?_, ?_, ?_, ?_, ?_, ?_, h.past, htrans _ _ _ h.present hR.1⟩
      · intro hn
        have hc := hn t c (k m.mem) (by rw [e1])
        show m.settled C s = f m.mem
        rw [hR.2 hc]
        refine h.state (fun u d b hp => ?_)
        by_cases hu : u = t
        · subst hu; rw [hph] at hp; cases hp; exact hc
        · exact hn u d b (by rw [e0 u hu]; exact hp)
      · intro u d b hp hd
        by_cases hu : u = t
        · subst hu
          rw [e1] at hp
          cases hp
          obtain ⟨g1, g2⟩ := h.now u c _ hph hd
          exact ⟨g1, g2.2 _⟩
        · rw [e0 u hu] at hp
          cases hc : C.locked c with
          | true => rw [honly hc u hu d b hp] at hd; cases hd
          | false =>
            show b.run (f m.mem) = _ ∧ _
            rw [hR.2 hc]
            exact h.now u d b hp hd
      · intro u d b hp hd
        by_cases hu : u = t
        · subst hu
          rw [e1] at hp
          cases hp
          obtain ⟨g1, g2⟩ := h.quiet u c _ hph hd
          refine ⟨g1.2 _, fun hg => ?_⟩
          have hg' := hG _ _ hR.1 hg
          exact g2 hg' m.mem hg'
        · rw [e0 u hu] at hp
          obtain ⟨g1, g2⟩ := h.quiet u d b hp hd
          exact ⟨g1, fun hg => g2 (hG _ _ hR.1 hg)⟩
      · intro u
        by_cases hu : u = t
        · subst hu; rw [e1]; exact h.order u
        · rw [e0 u hu]; exact h.order u
      · intro u
        by_cases hu : u = t
        · subst hu; rw [e1]; exact h.follows u
        · rw [e0 u hu]; exact h.follows u
      · intro u d hp
        by_cases hu : u = t
        · subst hu; rw [e1] at hp ⊢
          rcases hp with e | ⟨a, e⟩
          · cases e
          · cases e; exact hask
        · rw [e0 u hu] at hp ⊢; exact h.asked u d hp
      · intro x hx hc hg
        exact h.told x hx hc (hG _ _ hR.1 hg)
    | done r =>
      simp only [hph] at hlock ⊢
      generalize hlk : (if C.locked c = true then none else m.lock) = l at hlock ⊢
      generalize hm' : ({ m.put t ⟨(m.threads t).hist ++ [(c, r)], .idle⟩ with lock := l, log := m.log ++ [(t, c, r)] } : Mach σ ρ κ) = m' at hlock ⊢
      have e0 : ∀ u, u ≠ t → m'.threads u = m.threads u := fun u hu => by rw [← hm']; exact put_other m _ hu
      have e1 : m'.threads t = ⟨(m.threads t).hist ++ [(c, r)], .idle⟩ := by rw [← hm']; exact put_same m t _
      have e2 : m'.mem = m.mem := by rw [← hm']; rfl
      have e3 : m'.log = m.log ++ [(t, c, r)] := by rw [← hm']
      have e4 : m'.lockedLog C = m.lockedLog C ++ (if C.locked c = true then [(t, c, r)] else []) := by
        unfold Mach.lockedLog
        rw [e3, List.filter_append]
        by_cases hc : C.locked c = true
        · rw [if_pos hc, List.filter_cons_of_pos (by exact hc)]; rfl
        · rw [if_neg hc, List.filter_cons_of_neg (by exact hc)]; rfl
      have e5 : ((replay C s ((m'.lockedLog C).map (·.2.1))).1 = (m'.lockedLog C).map (·.2.2)) ∧
          (C.locked c = true → m'.settled C s = m.mem) ∧ (C.locked c = false → m'.settled C s = m.settled C s) := by
        unfold Mach.settled
        rw [e4]
        cases hc : C.locked c with
        | false => simpa using h.results
        | true =>
          have hnow : (r, m.mem) = (C.body c).run (m.settled C s) := (h.now t c _ hph hc).1
          simp only [if_true, List.map_append, List.map_cons, List.map_nil, replay_append, replay, h.results]
          rw [← Mach.settled, ← hnow]
          simp
      refine ⟨hlock, e5.1, ?_, ?_, ?_, ?_, ?_, ?_, ?_, ?_, ?_⟩
      · intro hn
        rw [e2]
        cases hc : C.locked c with
        | true => exact e5.2.1 hc
        | false =>
          rw [e5.2.2 hc]
          refine h.state (fun u d b hp => ?_)
          by_cases hu : u = t
          · subst hu; rw [hph] at hp; cases hp; exact hc
          · exact hn u d b (by rw [e0 u hu]; exact hp)
      · intro u d b hp hd
        by_cases hu : u = t
        · subst hu; rw [e1] at hp; cases hp
        · rw [e0 u hu] at hp
          cases hc : C.locked c with
          | true => rw [honly hc u hu d b hp] at hd; cases hd
          | false => rw [e2, e5.2.2 hc]; exact h.now u d b hp hd
      · intro u d b hp hd
        by_cases hu : u = t
        · subst hu; rw [e1] at hp; cases hp
        · rw [e0 u hu] at hp; rw [e2]; exact h.quiet u d b hp hd
      · intro u
        rw [e3]
        by_cases hu : u = t
        · subst hu; rw [e1, List.filter_append, List.map_append, ← h.order u]; simp
        · have : (t == u) = false := by simp; omega
          rw [e0 u hu, List.filter_append, List.map_append, ← h.order u]; simp [this]
      · intro u
        by_cases hu : u = t
        · subst hu; rw [e1]; exact follows_snoc (h.follows u) hask r
        · rw [e0 u hu]; exact h.follows u
      · intro u d hp
        by_cases hu : u = t
        · subst hu; rw [e1] at hp
          rcases hp with e | ⟨a, e⟩ <;> cases e
        · rw [e0 u hu] at hp ⊢; exact h.asked u d hp
      · intro x hx hc hg
        rw [e2] at hg
        rw [e3] at hx
        rcases List.mem_append.1 hx with hx | hx
        · exact h.told x hx hc hg
        · simp only [List.mem_singleton] at hx
          subst hx
          exact (h.quiet t c _ hph hc).2 hg
      · cases hc : C.locked c with
        | true => rw [e5.2.1 hc]; exact htrans _ _ _ h.past h.present
        | false => rw [e5.2.2 hc]; exact h.past
      · rw [e2]
        cases hc : C.locked c with
        | true => rw [e5.2.1 hc]; exact hrefl _
        | false => rw [e5.2.2 hc]; exact h.present

theorem quietInv_run (hrefl : ∀ a, R a a) (htrans : ∀ a b c, R a b → R b c → R a c) (hG : ∀ a b, R a b → G b → G a)
    (hq : ∀ t h c, prog t h = some c → C.locked c = false → (C.body c).Quiet ∧ (C.body c).Answers G (ans c))
    (hk : ∀ t h c, prog t h = some c → C.locked c = true → (C.body c).Keeps R) (sched : List Nat) :
    QuietInv C prog s R G ans ((Mach.start s).run C prog sched) := by
  suffices ∀ m : Mach σ ρ κ, QuietInv C prog s R G ans m → QuietInv C prog s R G ans (m.run C prog sched) from this _ (quietInv_start hrefl)
  induction sched with
  | nil => exact fun _ h => h
  | cons t ts ih => exact fun m h => ih _ (quietInv_step hrefl htrans hG hq hk h t)

end KTL
