import Verif.Props.QuietCalls
import Verif.Props.ThreadedBlocks
import Verif.Conc.CascadingOwns

/- C73: `owns` of a `threaded` allocator while other threads allocate. -/
namespace KTL

/-! ### Specification -/

/-- no `cascading` anywhere inside -/
def AllocTy.steady : AllocTy → Bool
  | .null => true
  | .mallocator => true
  | .linear _ => true
  | .stack _ => true
  | .freelist _ _ A => A.steady
  | .fallback P F => P.steady && F.steady
  | .segragator _ P F => P.steady && F.steady
  | .cascading _ => false
  | .overflow A => A.steady
  | .threaded A => A.steady
  | .shared A => A.steady
  | .reference A => A.steady

/-- the part of the state that `view` shows is the same in both states, if the second one is one at all (and not a crash) -/
def SameFields {St V : Type} (view : St → V) (r r' : Res St) : Prop := ∀ s' w', r' = .ok s' w' → ∃ s w, r = .ok s w ∧ view s' = view s

/-- The accesses `allocate`, `deallocate` and `owns` make: `view` are the fields that `owns` (with the answer `f`) reads. Each access of `allocate`
and `deallocate` leaves them alone, and `owns` only reads, and its answer depends on nothing else. -/
structure OwnsReads (A : Allocator) (f : A.St → Nat → Bool) {V : Type} (view : A.St → V) (C : Calls (Res A.St) Nat TCall) : Prop where
  allocate : ∀ n, (C.body (.allocate n)).Keeps (SameFields view)
  deallocate : ∀ p n, (C.body (.deallocate p n)).Keeps (SameFields view)
  quiet : ∀ p, (C.body (.owns p)).Quiet
  answers : ∀ p s₀, (C.body (.owns p)).Answers (fun r => ∃ s w, r = .ok s w ∧ view s = view s₀) (if f s₀ p then 1 else 0)

/-- The threads keep to the rules, and may call `owns` at any time, for any address. -/
def LawfulOwns (t : AllocTy) (prog : Nat → List (TCall × Nat) → Option TCall) : Prop :=
  ∀ i h c, prog i h = some c → LawfulCall t h c ∨ ∃ p, c = .owns p

/-! ### What is owned does not change -/

/-- Proof helper -/
def Steady (A : Allocator) : Prop := ∀ f, A.owns = some f →
  (∀ s n, Post (A.alloc s n) (fun r => f r.2 = f s)) ∧ ∀ s p n, Post (A.dealloc s p n) (fun s' => f s' = f s)

theorem Post.ite {α} {c : Prop} [Decidable c] {a b : M α} {Q : α → Prop} (ha : Post a Q) (hb : Post b Q) : Post (if c then a else b) Q := by
  split
  · exact ha
  · exact hb

theorem steady_fallback {P F : Allocator} (hP : Steady P) (hF : Steady F) : Steady (fallback P F) := by
  intro f hf
  change owns2 P F = some f at hf
  unfold owns2 at hf
  split at hf
  · rename_i f1 f2 h1 h2
    cases hf
    obtain ⟨a1, d1⟩ := hP f1 h1
    obtain ⟨a2, d2⟩ := hF f2 h2
    refine ⟨fun s n => Post.bind (a1 s.1 n) fun r hr => ?_, fun s p n => ?_⟩
    · split
      · exact Post.bind (a2 s.2 n) fun q hq => Post.pure (by dsimp only; rw [hr, hq])
      · exact Post.pure (by dsimp only; rw [hr])
    · refine Post.ite ?_ ?_
      · exact Post.bind (d1 s.1 p n) fun s' hs => Post.pure (by dsimp only; rw [hs])
      · exact Post.bind (d2 s.2 p n) fun s' hs => Post.pure (by dsimp only; rw [hs])
  · cases hf

theorem steady_segragator {T : Nat} {P F : Allocator} (hP : Steady P) (hF : Steady F) : Steady (segragator T P F) := by
  intro f hf
  change owns2 P F = some f at hf
  unfold owns2 at hf
  split at hf
  · rename_i f1 f2 h1 h2
    cases hf
    obtain ⟨a1, d1⟩ := hP f1 h1
    obtain ⟨a2, d2⟩ := hF f2 h2
    refine ⟨fun s n => ?_, fun s p n => ?_⟩
    · refine Post.ite ?_ ?_
      · exact Post.bind (a1 s.1 n) fun r hr => Post.pure (by dsimp only; rw [hr])
      · exact Post.bind (a2 s.2 n) fun r hr => Post.pure (by dsimp only; rw [hr])
    · refine Post.ite ?_ ?_
      · exact Post.bind (d1 s.1 p n) fun s' hs => Post.pure (by dsimp only; rw [hs])
      · exact Post.bind (d2 s.2 p n) fun s' hs => Post.pure (by dsimp only; rw [hs])
  · cases hf

theorem steady_freelist {m M' : Nat} {A : Allocator} (hA : Steady A) : Steady (freelist m M' A) := by
  intro f hf
  obtain ⟨g, hg, rfl⟩ := Option.map_eq_some_iff.1 hf
  obtain ⟨a1, d1⟩ := hA g hg
  refine ⟨fun s n => ?_, fun s p n => ?_⟩
  · refine Post.ite ?_ ?_
    · refine Post.ite ?_ ?_
      · exact Post.bind' fun _ => Post.pure rfl
      · exact Post.bind (a1 s.a M') fun r hr => Post.pure (by dsimp only; rw [hr])
    · exact Post.pure rfl
  · refine Post.ite ?_ ?_
    · exact Post.bind' fun _ => Post.pure rfl
    · exact Post.pure rfl

theorem steady_overflow {A : Allocator} (hA : Steady A) : Steady (overflow A) := by
  intro f hf
  obtain ⟨g, hg, rfl⟩ := Option.map_eq_some_iff.1 hf
  obtain ⟨a1, d1⟩ := hA g hg
  refine ⟨fun s n => Post.bind (a1 s.a _) fun r hr => ?_, fun s p n => ?_⟩
  · split
    · exact Post.pure (by dsimp only; rw [hr])
    · exact Post.bind' fun _ => Post.bind' fun _ => Post.pure (by dsimp only; rw [hr])
  · refine Post.ite ?_ ?_
    · exact Post.bind' fun _ => Post.bind' fun _ => Post.bind' fun _ => Post.bind (d1 s.a _ _) fun s' hs => Post.pure (by dsimp only; rw [hs])
    · exact Post.pure rfl

theorem steady_shared {sys : Sys} {A : Allocator} (hA : Steady A) : Steady (sharedAlloc sys A) := by
  intro f hf
  obtain ⟨g, hg, rfl⟩ := Option.map_eq_some_iff.1 hf
  obtain ⟨a1, d1⟩ := hA g hg
  exact ⟨fun s n => Post.bind (a1 s.2 n) fun r hr => Post.pure (by dsimp only; rw [hr]),
    fun s p n => Post.bind (d1 s.2 p n) fun s' hs => Post.pure (by dsimp only; rw [hs])⟩

theorem stack_dealloc_data (s : Stack) (p n : Nat) : (Stack.dealloc s p n).data = s.data := by
  unfold Stack.dealloc
  by_cases h1 : subW s.free (addW n (alignPad n)) = p <;>
    by_cases h2 : subW s.count (addW n (alignPad n)) = 0 <;> simp [h1, h2]

theorem stack_dealloc_owns (S : Nat) (s : Stack) (p n : Nat) : Stack.owns S (Stack.dealloc s p n) = Stack.owns S s := by
  unfold Stack.owns
  rw [stack_dealloc_data]

theorem steady_denote (sys : Sys) (t : AllocTy) (ht : t.steady = true) : Steady (t.denote sys) := by
  induction t with
  | null => intro f hf; cases hf; exact ⟨fun _ _ _ _ _ _ => rfl, fun _ _ _ _ _ _ _ => rfl⟩
  | mallocator => intro f hf; cases hf
  | linear S =>
    intro f hf
    cases hf
    refine ⟨fun s n => Post.pure ?_, fun s p n => Post.pure rfl⟩
    unfold Linear.alloc
    dsimp only
    split <;> rfl
  | stack S =>
    intro f hf
    cases hf
    refine ⟨fun s n => Post.pure ?_, fun s p n => Post.pure ?_⟩
    · unfold Stack.alloc
      dsimp only
      split <;> rfl
    · exact stack_dealloc_owns S s p n
  | freelist m M A ih => exact steady_freelist (ih ht)
  | fallback P F ihP ihF =>
    simp only [AllocTy.steady, Bool.and_eq_true] at ht
    exact steady_fallback (ihP ht.1) (ihF ht.2)
  | segragator T P F ihP ihF =>
    simp only [AllocTy.steady, Bool.and_eq_true] at ht
    exact steady_segragator (ihP ht.1) (ihF ht.2)
  | cascading A => cases ht
  | overflow A ih => exact steady_overflow (ih ht)
  | threaded A ih => exact ih ht
  | shared A ih => exact steady_shared (ih ht)
  | reference A ih => exact ih ht

/-! ### Proof -/

theorem SameFields.refl {St V : Type} (view : St → V) (r : Res St) : SameFields view r r := fun s w h => ⟨s, w, h, rfl⟩

theorem SameFields.trans {St V : Type} {view : St → V} {a b c : Res St} (h1 : SameFields view a b) (h2 : SameFields view b c) : SameFields view a c := by
  intro s' w' e
  obtain ⟨s1, w1, e1, g1⟩ := h2 s' w' e
  obtain ⟨s2, w2, e2, g2⟩ := h1 s1 w1 e1
  exact ⟨s2, w2, e2, g1.trans g2⟩

theorem Act.Answers.unique {σ ρ : Type} {G : σ → Prop} {r r' : ρ} {a : Act σ ρ} (h : a.Answers G r) (h' : a.Answers G r') (s : σ) (hs : G s) : r = r' := by
  induction a with
  | done x => exact h.symm.trans h'
  | step f k ih => exact ih s (h s hs) (h' s hs)

/-- the fields `owns` reads determine its answer -/
theorem OwnsReads.determines {A : Allocator} {f : A.St → Nat → Bool} {V : Type} {view : A.St → V} {C : Calls (Res A.St) Nat TCall}
    (h : OwnsReads A f view C) (w : World) {s s' : A.St} (e : view s = view s') : f s = f s' := by
  funext p
  have h1 := h.answers p s
  have h2 := h.answers p s'
  rw [← e] at h2
  have := h1.unique h2 (.ok s w) ⟨s, w, rfl, rfl⟩
  cases hs : f s p <;> cases hs' : f s' p <;> simp [hs, hs'] at this ⊢

theorem Act.Keeps.run {σ ρ : Type} {R : σ → σ → Prop} (hrefl : ∀ a, R a a) (htrans : ∀ a b c, R a b → R b c → R a c) {a : Act σ ρ}
    (h : a.Keeps R) (s : σ) : R s (a.run s).2 := by
  induction a generalizing s with
  | done r => exact hrefl s
  | step f k ih => exact htrans _ _ _ (h.1 s) (ih s (h.2 s) (f s))

theorem replay_length {σ ρ κ : Type} (C : Calls σ ρ κ) (cs : List κ) (s : σ) : (replay C s cs).1.length = cs.length := by
  induction cs generalizing s with
  | nil => rfl
  | cons c cs ih => rw [replay]; simp [ih]

theorem replay_keeps {σ ρ κ : Type} {C : Calls σ ρ κ} {R : σ → σ → Prop} (hrefl : ∀ a, R a a) (htrans : ∀ a b c, R a b → R b c → R a c) (cs : List κ)
    (h : ∀ c ∈ cs, (C.body c).Keeps R) (s : σ) : R s (replay C s cs).2 := by
  induction cs generalizing s with
  | nil => exact hrefl s
  | cons c cs ih =>
    rw [replay]
    exact htrans _ _ _ ((h c List.mem_cons_self).run hrefl htrans s) (ih (fun d hd => h d (List.mem_cons_of_mem _ hd)) _)

/-- calls of `owns` do not change what is held -/
theorem heldAfter_locked (h : List (TCall × Nat)) (acc : List (Nat × Nat)) : heldAfter acc (h.filter fun x => x.1.locked) = heldAfter acc h := by
  induction h generalizing acc with
  | nil => rfl
  | cons x h ih =>
    obtain ⟨c, r⟩ := x
    cases c <;> exact ih _

theorem map_filter_locked (log : List (Nat × TCall × Nat)) (i : Nat) :
    ((log.filter fun x => x.2.1.locked).filter (·.1 == i)).map (·.2) = (((log.filter (·.1 == i)).map (·.2)).filter fun x => x.1.locked) := by
  simp [List.filter_map, List.filter_filter, Function.comp_def, Bool.and_comm]

theorem held_locked (log : List (Nat × TCall × Nat)) (i : Nat) :
    held (((log.filter fun x => x.2.1.locked).filter (·.1 == i)).map (·.2)) = held ((log.filter (·.1 == i)).map (·.2)) := by
  rw [map_filter_locked]
  exact heldAfter_locked _ _

/-- an element of the filtered list, and what precedes it -/
theorem filter_split {α : Type} (q : α → Bool) (l pre : List α) (x : α) (post : List α) (h : l.filter q = pre ++ x :: post) :
    ∃ a b, l = a ++ x :: b ∧ a.filter q = pre := by
  induction l generalizing pre with
  | nil => simp at h
  | cons y l ih =>
    by_cases hy : q y = true
    · rw [List.filter_cons_of_pos hy] at h
      cases pre with
      | nil =>
        cases h
        exact ⟨[], l, rfl, rfl⟩
      | cons z pre =>
        simp only [List.cons_append, List.cons.injEq] at h
        obtain ⟨rfl, h⟩ := h
        obtain ⟨a, b, rfl, e⟩ := ih pre h
        exact ⟨y :: a, b, rfl, by rw [List.filter_cons_of_pos hy, e]⟩
    · rw [List.filter_cons_of_neg hy] at h
      obtain ⟨a, b, rfl, e⟩ := ih pre h
      exact ⟨y :: a, b, rfl, by rw [List.filter_cons_of_neg hy, e]⟩

/-- the moment at which a thread had a given history -/
theorem filter_prefix {α β : Type} (q : α → Bool) (g : α → β) (l : List α) (h rest : List β) (e : (l.filter q).map g = h ++ rest) :
    ∃ a b, l = a ++ b ∧ (a.filter q).map g = h := by
  induction l generalizing h with
  | nil =>
    simp only [List.filter_nil, List.map_nil, List.nil_eq, List.append_eq_nil_iff] at e
    exact ⟨[], [], rfl, e.1.symm⟩
  | cons y l ih =>
    cases h with
    | nil => exact ⟨[], y :: l, rfl, rfl⟩
    | cons z h =>
      by_cases hy : q y = true
      · rw [List.filter_cons_of_pos hy] at e
        simp only [List.map_cons, List.cons_append, List.cons.injEq] at e
        obtain ⟨rfl, e⟩ := e
        obtain ⟨a, b, rfl, e'⟩ := ih h e
        exact ⟨y :: a, b, rfl, by rw [List.filter_cons_of_pos hy, List.map_cons, e']⟩
      · rw [List.filter_cons_of_neg hy] at e
        obtain ⟨a, b, rfl, e'⟩ := ih (z :: h) e
        exact ⟨y :: a, b, rfl, by rw [List.filter_cons_of_neg hy, e']⟩

/-! ### C73 -/

/-- **C73.** What a composed allocator without `cascading` owns never changes: whatever is allocated or given back, `owns` answers the same
afterwards as before, for every address. -/
theorem C73_owned_fixed (sys : Sys) (t : AllocTy) (ht : t.steady = true) (f : (t.denote sys).St → Nat → Bool) (hf : (t.denote sys).owns = some f)
    (s : (t.denote sys).St) (w : World) :
    (∀ n p s' w', (t.denote sys).alloc s n w = .ok (p, s') w' → ∀ x, f s' x = f s x) ∧
    (∀ p n s' w', (t.denote sys).dealloc s p n w = .ok s' w' → ∀ x, f s' x = f s x) := by
  obtain ⟨h1, h2⟩ := steady_denote sys t ht f hf
  exact ⟨fun n p s' w' e x => congrFun (h1 s n w _ w' e) x, fun p n s' w' e x => congrFun (h2 s p n w _ w' e) x⟩

/-- **C73.** As C64, but the threads may also ask `owns` at any time, and `owns` does not wait for the lock: it reads while others are in the
middle of `allocate` and `deallocate`. All of C64 still holds; and, as long as no `malloc` has failed, each `owns(p)` answered what it would
have answered on the new allocator: 1 if `p` lies in a block that some thread was given, before or after, and 0 if `p` is memory that was there
before the allocator and is not part of it. -/
theorem C73_owns_while_others_allocate_partial (sys : Sys) (t : AllocTy) (hwf : t.WF) (b : Nat) (w : World)
    (hs : Storage w b t.size) (s : (t.denote sys).St) (w1 : World) (hi : (t.denote sys).init b w = .ok s w1)
    (f : (t.denote sys).St → Nat → Bool) (hf : (t.denote sys).owns = some f)
    (C : Calls (Res (t.denote sys).St) Nat TCall) (hC : IsThreaded (t.denote sys) C) {V : Type} (view : (t.denote sys).St → V)
    (hO : OwnsReads (t.denote sys) f view C)
    (prog : Nat → List (TCall × Nat) → Option TCall) (hprog : LawfulOwns t prog) (sched : List Nat) :
    let m := (Mach.start (.ok s w1)).run C prog sched
    (∀ i, (held (m.threads i).hist).Pairwise NoOverlap) ∧
    (∀ i j, i ≠ j → ∀ x ∈ held (m.threads i).hist, ∀ y ∈ held (m.threads j).hist, NoOverlap x y) ∧
    (∀ i, ∀ x ∈ held (m.threads i).hist, x.1 ≠ 0 ∧ x.1 % 16 = 0 ∧ x.1 + x.2 < 2 ^ 64) ∧
    ((∀ i c a, (m.threads i).phase = .running c a → ∃ p, c = .owns p) →
      match m.mem with
      | .ok _ w' => ∀ i, ∀ x ∈ held (m.threads i).hist, ∀ k, k < x.2 → (w'.heap.b (x.1 + k)).isSome = true
      | .oom w' => w'.failed = true
      | .ub => False) ∧
    (∀ s' w', m.mem = .ok s' w' → ∀ i p r, (.owns p, r) ∈ (m.threads i).hist →
      r = (if f s p then 1 else 0) ∧
      (∀ j h rest, (m.threads j).hist = h ++ rest → (∃ x ∈ held h, x.1 ≤ p ∧ p < x.1 + x.2) → r = 1) ∧
      (p ≠ 0 → ¬ (b ≤ p ∧ p < b + t.size) → (w.heap.b p).isSome = true → r = 0)) := by
  intro m
  have hlk : ∀ c, C.locked c = c.locked := hC.locked
  have hkeep : ∀ c, (∃ n, c = .allocate n) ∨ (∃ p n, c = .deallocate p n) → (C.body c).Keeps (SameFields view) := by
    rintro c (⟨n, rfl⟩ | ⟨p, n, rfl⟩)
    · exact hO.allocate n
    · exact hO.deallocate p n
  have hkinds : ∀ t' h c, prog t' h = some c → c.locked = true → (∃ n, c = .allocate n) ∨ (∃ p n, c = .deallocate p n) := by
    intro t' h c hc hl
    cases c with
    | allocate n => exact .inl ⟨n, rfl⟩
    | deallocate p n => exact .inr ⟨p, n, rfl⟩
    | construct => cases hl
    | destroy => cases hl
    | owns => cases hl
  have hun : ∀ t' h c, prog t' h = some c → c.locked = false → ∃ p, c = .owns p := by
    intro t' h c hc hl
    rcases hprog t' h c hc with h1 | h1
    · cases c with
      | allocate n => cases hl
      | deallocate p n => cases hl
      | construct => exact h1.elim
      | destroy => exact h1.elim
      | owns => exact h1.elim
    · exact h1
  let ans : TCall → Nat := fun c => match c with
    | .owns p => if f s p then 1 else 0
    | _ => 0
  have inv : QuietInv C prog (.ok s w1) (SameFields view) (fun r => ∃ s' w', r = .ok s' w' ∧ view s' = view s) ans m := by
    refine quietInv_run (SameFields.refl view) (fun _ _ _ => SameFields.trans) ?_ ?_ ?_ sched
    · rintro a b' hab ⟨s', w', rfl, e⟩
      obtain ⟨s2, w2, e2, g⟩ := hab s' w' rfl
      exact ⟨s2, w2, e2, g.symm.trans e⟩
    · intro t' h c hc hl
      rw [hlk] at hl
      obtain ⟨p, rfl⟩ := hun t' h c hc hl
      exact ⟨hO.quiet p, hO.answers p s⟩
    · intro t' h c hc hl
      rw [hlk] at hl
      exact hkeep c (hkinds t' h c hc hl)
  have hll : m.lockedLog C = m.log.filter fun x => x.2.1.locked := by
    unfold Mach.lockedLog
    congr 1
    funext x
    exact hlk _
  -- every call in the log was made by the program
  have hmade : ∀ pre i c r post, m.log = pre ++ (i, c, r) :: post → prog i ((pre.filter (·.1 == i)).map (·.2)) = some c := by
    intro pre i c r post e
    refine inv.follows i _ c r ((post.filter (·.1 == i)).map (·.2)) ?_
    rw [inv.order, e]
    simp
  -- the prefixes of the log are explained
  have hE : ∀ pre post, m.log = pre ++ post →
      Explained sys t b w (heldAll [] (pre.filter fun x => x.2.1.locked)) (replay C (.ok s w1) ((pre.filter fun x => x.2.1.locked).map (·.2.1))).2 := by
    intro pre post e
    refine explained_log hwf hs hC hi _ ?_ ?_
    · have h1 := inv.results
      rw [hll, e, List.filter_append, List.map_append, List.map_append, replay_append] at h1
      exact (List.append_inj h1 (by rw [replay_length]; simp)).1
    · intro pre' i c r post' e'
      obtain ⟨a, b', e1, e2⟩ := filter_split _ _ _ _ _ e'
      have h1 := hmade a i c r (b' ++ post) (by rw [e, e1]; simp)
      have hcl : c.locked = true := by
        have : (i, c, r) ∈ pre.filter fun x => x.2.1.locked := by rw [e']; simp
        exact (List.mem_filter.1 this).2
      rcases hprog i _ c h1 with h2 | ⟨p, rfl⟩
      · rw [← e2]
        cases c with
        | allocate n => exact h2
        | deallocate p n =>
          dsimp only [LawfulCall] at h2 ⊢
          rw [held_locked]
          exact h2
        | construct => exact h2.elim
        | destroy => exact h2.elim
        | owns => exact h2.elim
      · cases hcl
  have hparts : ∀ (pre : List (Nat × TCall × Nat)) (i : Nat), held ((pre.filter (·.1 == i)).map (·.2)) = part i (heldAll [] (pre.filter fun x => x.2.1.locked)) := by
    intro pre i
    rw [part_heldAll, ← held_locked]
    rfl
  have hpart : ∀ i, held (m.threads i).hist = part i (heldAll [] (m.log.filter fun x => x.2.1.locked)) := by
    intro i
    rw [inv.order]
    exact hparts m.log i
  have hEm := hE m.log [] (by simp)
  obtain ⟨hg1, hg2⟩ := hEm.good hwf hs
  have hmem : ∀ i x G, x ∈ part i G → (i, x) ∈ G := by
    intro i x G hx
    obtain ⟨g, h1, rfl⟩ := List.mem_map.1 hx
    obtain ⟨h2, h3⟩ := List.mem_filter.1 h1
    have : g.1 = i := by simpa using h3
    cases this
    exact h2
  have hsub : ∀ i x, x ∈ held (m.threads i).hist → (i, x) ∈ heldAll [] (m.log.filter fun x => x.2.1.locked) := by
    intro i x hx
    rw [hpart] at hx
    exact hmem i x _ hx
  have hsub' : ∀ i x, x ∈ held (m.threads i).hist → x ∈ (heldAll [] (m.log.filter fun x => x.2.1.locked)).map (·.2) :=
    fun i x hx => List.mem_map.2 ⟨_, hsub i x hx, rfl⟩
  refine ⟨?_, ?_, ?_, ?_, ?_⟩
  · intro i
    rw [hpart]
    exact hg1.sublist (List.filter_sublist.map _)
  · intro i j hij x hx y hy
    rw [List.pairwise_map] at hg1
    exact pairwise_of_ne (fun _ _ h => h.symm) hg1 (hsub i x hx) (hsub j y hy) (fun e => hij (congrArg Prod.fst e))
  · intro i x hx
    exact hg2 x (hsub' i x hx)
  · intro hq
    have hst := inv.state (fun t' c a hp => by
      obtain ⟨p, rfl⟩ := hq t' c a hp
      rw [hlk]
      rfl)
    unfold Mach.settled at hst
    rw [hll] at hst
    rw [hst] at hEm
    revert hEm
    cases m.mem with
    | ub => intro hE; cases hE
    | oom w' => intro hE; cases hE; assumption
    | ok s' w' =>
      intro hE i x hx k hk
      cases hE with
      | ok ops hops c _ hp hperm =>
        obtain ⟨a, ha, rfl⟩ := List.mem_map.1 (hperm.mem_iff.2 (hsub' i x hx))
        have := C04_contents_preserved sys t hwf b w hs ops hops c w' hp a (List.mem_append.2 (.inl ha)) k hk
        show (w'.heap.b (a.1 + k)).isSome = true
        rw [this]
        rfl
  · intro s' w' hm i p r hr
    have hall : ∀ pre post, m.log = pre ++ post → ∃ s2 w2, (replay C (.ok s w1) ((pre.filter fun x => x.2.1.locked).map (·.2.1))).2 = .ok s2 w2 ∧ view s2 = view s := by
      intro pre post e
      have k1 : ∀ l : List (Nat × TCall × Nat), (∀ x ∈ l, x ∈ m.log) → ∀ r0, SameFields view r0 (replay C r0 ((l.filter fun x => x.2.1.locked).map (·.2.1))).2 := by
        intro l hl r0
        refine replay_keeps (SameFields.refl view) (fun _ _ _ => SameFields.trans) _ ?_ r0
        intro c hc
        obtain ⟨x, hx, rfl⟩ := List.mem_map.1 hc
        obtain ⟨hx1, hx2⟩ := List.mem_filter.1 hx
        obtain ⟨l1, l2, e'⟩ := List.append_of_mem (hl x hx1)
        obtain ⟨x1, x2, x3⟩ := x
        exact hkeep _ (hkinds _ _ _ (hmade l1 x1 x2 x3 l2 e') hx2)
      have k2 := k1 post (fun x hx => by rw [e]; exact List.mem_append_right _ hx)
        (replay C (.ok s w1) ((pre.filter fun x => x.2.1.locked).map (·.2.1))).2
      have k3 := inv.present
      unfold Mach.settled at k3
      rw [hll, e, List.filter_append, List.map_append, replay_append] at k3
      obtain ⟨s2, w2, e2, g2⟩ := (k2.trans k3) s' w' hm
      obtain ⟨s3, w3, e3, g3⟩ := k1 pre (fun x hx => by rw [e]; exact List.mem_append_left _ hx) (.ok s w1) s2 w2 e2
      cases e3
      exact ⟨s2, w2, e2, g3⟩
    have hfs : view s' = view s := by
      obtain ⟨s2, w2, e2, g2⟩ := inv.past.trans inv.present s' w' hm
      cases e2
      exact g2
    have hrr : r = (if f s p then 1 else 0) := by
      rw [inv.order] at hr
      obtain ⟨x, hx, hx2⟩ := List.mem_map.1 hr
      have hx3 := (List.mem_filter.1 hx).1
      have := inv.told x hx3 (by rw [hlk, hx2]; rfl) ⟨s', w', hm, hfs⟩
      rw [hx2] at this
      exact this
    refine ⟨hrr, ?_, ?_⟩
    · rintro j h rest hh ⟨x, hx, hxp⟩
      rw [inv.order] at hh
      obtain ⟨a, b', e1, e2⟩ := filter_prefix _ _ _ _ _ hh
      obtain ⟨s2, w2, e3, g3⟩ := hall a b' e1
      have hEa := hE a b' e1
      rw [e3] at hEa
      rw [← e2, hparts] at hx
      have hx' := hmem _ _ _ hx
      cases hEa with
      | ok ops hops c _ hp hperm =>
        obtain ⟨y, hy, hy2⟩ := List.mem_map.1 (hperm.mem_iff.2 (List.mem_map.2 ⟨_, hx', rfl⟩))
        have := (C06_owns_exact sys t hwf b w hs ops hops c w2 hp f hf p).1 ⟨y, hy, by
          dsimp only at hy2
          rw [← hy2] at hxp
          exact hxp⟩
        rw [hO.determines w1 g3] at this
        rw [hrr, this]
        rfl
    · intro h0 hout hmap
      have := (C06_owns_exact sys t hwf b w hs [] (fun n h => by simp at h) { st := s, live := [], foreign := [] } w1 (by
        show ((t.denote sys).init b >>= fun s => _) w = _
        rw [M.bind_apply, hi]
        rfl) f hf p).2.2 h0 hout hmap
      rw [hrr]
      show (if f s p = true then 1 else 0) = 0
      rw [if_neg (by rw [show f s p = false from this]; simp)]

/-! ### `cascading` -/

open Cascading

theorem ownsLoop_alone (A : Allocator) (p : Nat) (w : World) (suf : List (Node A.St)) : ∀ (pre : List (Node A.St)) (fuel : Nat),
    ((pre ++ suf).map Node.addr).Nodup → (∀ nd ∈ pre ++ suf, nd.addr ≠ 0) → suf.length ≤ fuel →
    (ownsLoop A p fuel (firstNode suf)).run (.ok (pre ++ suf) w) = (if suf.any (fun nd => A.ownsD nd.st p) then 1 else 0, .ok (pre ++ suf) w) := by
  induction suf with
  | nil =>
    intro pre fuel _ _ _
    cases fuel with
    | zero => rfl
    | succ fuel => rfl
  | cons nd rest ih =>
    intro pre fuel hnd h0 hf
    cases fuel with
    | zero => simp at hf
    | succ fuel =>
      have hne : nd.addr ≠ 0 := h0 nd (by simp)
      have hdrop : (pre ++ nd :: rest).dropWhile (fun x => x.addr != nd.addr) = nd :: rest := by
        have hpre : ∀ x ∈ pre, x.addr ≠ nd.addr := by
          intro x hx e
          rw [List.map_append, List.map_cons] at hnd
          exact (List.nodup_append.1 hnd).2.2 x.addr (List.mem_map_of_mem hx) nd.addr (by simp) e
        clear hnd h0 ih
        induction pre with
        | nil => simp
        | cons x pre ihp =>
          have := hpre x List.mem_cons_self
          rw [List.cons_append, List.dropWhile_cons_of_pos (by simpa using this)]
          exact ihp fun y hy => hpre y (List.mem_cons_of_mem _ hy)
      have hany : (pre ++ nd :: rest).any (fun x => x.addr == nd.addr) = true := by simp
      show Act.run (if nd.addr = 0 then .done 0 else _) _ = _
      rw [if_neg hne]
      show Act.run (match (pre ++ nd :: rest).dropWhile (fun x => x.addr != nd.addr) with
          | [] => .done 0
          | nd :: rest => if A.ownsD nd.st p then .done 1 else ownsLoop A p fuel (firstNode rest))
        (if (pre ++ nd :: rest).any (fun x => x.addr == nd.addr) then .ok (pre ++ nd :: rest) w else .ub) = _
      rw [hdrop, hany, if_pos rfl, List.any_cons]
      dsimp only
      by_cases ho : A.ownsD nd.st p = true
      · rw [if_pos ho, ho]; rfl
      · rw [if_neg ho]
        have e : pre ++ nd :: rest = (pre ++ [nd]) ++ rest := by simp
        simp only [Bool.not_eq_true] at ho
        rw [ho, Bool.false_or, e]
        exact ih (pre ++ [nd]) fuel (by rw [← e]; exact hnd) (by rw [← e]; exact h0) (by simpa using hf)

/-- run alone, the accesses of `cascading::owns` give its answer (the nodes have addresses, all different) -/
theorem cascadingOwns_alone (sys : Sys) (A : Allocator) (p : Nat) (s : List (Node A.St)) (w : World) (h1 : (s.map Node.addr).Nodup)
    (h2 : ∀ nd ∈ s, nd.addr ≠ 0) :
    ∀ f, (cascading sys A).owns = some f → (cascadingOwns A p).run (.ok s w) = (if f s p then 1 else 0, .ok s w) := by
  intro f hf
  cases hf
  exact ownsLoop_alone A p w s [] s.length h1 h2 (Nat.le_refl _)

/-- `threaded<cascading<A>>`: `allocate` and `deallocate` happen at once, `owns` node by node -/
def threadedCascading (sys : Sys) (A : Allocator) : Calls (Res (List (Node A.St))) Nat TCall where
  body c := match c with
    | .owns p => cascadingOwns A p
    | c => .step (fun r => (c.exec (A := cascading sys A) r).2) fun r => .done (c.exec (A := cascading sys A) r).1
  locked := TCall.locked

/-- one thread allocates two blocks of 64 bytes and gives the first one back; another one asks who owns address 8 -/
def oneAsks : Nat → List (TCall × Nat) → Option TCall := fun i h =>
  match i, h with
  | 0, [] => some (.allocate 64)
  | 0, [_] => some (.allocate 64)
  | 0, [(.allocate 64, p), (.allocate 64, _)] => if p ≠ 0 then some (.deallocate p 64) else none
  | 1, [] => some (.owns 8)
  | _, _ => none

theorem oneAsks_lawful : LawfulOwns (.threaded (.cascading (.linear 64))) oneAsks := by
  intro i h c e
  unfold oneAsks at e
  split at e
  · cases e; exact .inl ⟨by decide, by decide⟩
  · cases e; exact .inl ⟨by decide, by decide⟩
  · split at e
    · rename_i p q hp
      cases e
      left
      show (p, 64) ∈ held _
      by_cases hq : q = 0
      · simp [held, heldAfter, hp, hq]
      · simp [held, heldAfter, hp, hq]
    · cases e
  · cases e; exact .inr ⟨8, rfl⟩
  · cases e

/-- **C73 is false with `cascading`**: `owns` of `threaded<cascading<linear_allocator<64>>>` has stepped on to the second node when another
thread gives back the last block of that node; the node is deleted and `owns` reads it. -/
theorem C73_cascading_false :
    LawfulOwns (.threaded (.cascading (.linear 64))) oneAsks ∧
    (((Mach.start (.ok [] (demoWorld 64))).run (threadedCascading (demoSys .direct) (linear 64)) oneAsks
      [0, 0, 0, 0, 0, 0, 0, 0, 1, 1, 1, 1, 0, 0, 0, 0, 1]).mem).isUB = true :=
  ⟨oneAsks_lawful, by decide +kernel⟩

/-! ### Non-vacuity -/

/-- `threaded<A>` whose calls happen at once -/
def atomicThreaded (A : Allocator) : Calls (Res A.St) Nat TCall where
  body c := .step (match c with | .owns _ => id | c => fun r => (c.exec r).2) fun r => .done (c.exec r).1
  locked := TCall.locked

/-- the hypotheses of C73 can be met for every composition without `cascading` that has `owns` -/
theorem atomicThreaded_meets (sys : Sys) (t : AllocTy) (ht : t.steady = true) (f : (t.denote sys).St → Nat → Bool) (hf : (t.denote sys).owns = some f) :
    IsThreaded (t.denote sys) (atomicThreaded (t.denote sys)) ∧ OwnsReads (t.denote sys) f f (atomicThreaded (t.denote sys)) := by
  have howns : ∀ p s w, TCall.onAlloc (A := t.denote sys) s (.owns p) w = .ok (if f s p then 1 else 0, s) w := by
    intro p s w
    simp only [TCall.onAlloc, hf]
    rfl
  obtain ⟨ha, hd⟩ := steady_denote sys t ht f hf
  refine ⟨⟨fun _ => rfl, ?_, fun c w => by cases c <;> rfl, fun c => by cases c <;> rfl⟩, ⟨fun n => ⟨?_, fun _ => trivial⟩, fun p n => ⟨?_, fun _ => trivial⟩,
    fun p => ⟨fun _ => rfl, fun _ => trivial⟩, fun p s₀ => ?_⟩⟩
  · intro c s w
    cases c with
    | owns p =>
      rw [howns]
      show ((TCall.exec (A := t.denote sys) (.owns p) (.ok s w)).1, _) = _
      simp only [TCall.exec, howns]
      rfl
    | allocate => rfl
    | deallocate => rfl
    | construct => rfl
    | destroy => rfl
  · intro r s' w' e
    cases r with
    | oom => cases e
    | ub => cases e
    | ok s w =>
      refine ⟨s, w, rfl, ?_⟩
      change (TCall.exec (A := t.denote sys) (.allocate n) (.ok s w)).2 = _ at e
      simp only [TCall.exec, TCall.onAlloc] at e
      cases h : (t.denote sys).alloc s n w with
      | ok x w2 => rw [h] at e; cases e; exact ha s n w _ _ h
      | oom => rw [h] at e; cases e
      | ub => rw [h] at e; cases e
  · intro r s' w' e
    cases r with
    | oom => cases e
    | ub => cases e
    | ok s w =>
      refine ⟨s, w, rfl, ?_⟩
      change (TCall.exec (A := t.denote sys) (.deallocate p n) (.ok s w)).2 = _ at e
      simp only [TCall.exec, TCall.onAlloc, M.bind_apply] at e
      cases h : (t.denote sys).dealloc s p n w with
      | ok x w2 => rw [h] at e; cases e; exact hd s p n w _ _ h
      | oom => rw [h] at e; cases e
      | ub => rw [h] at e; cases e
  · rintro r ⟨s, w, rfl, e⟩
    show (TCall.exec (A := t.denote sys) (.owns p) (.ok s w)).1 = _
    simp only [TCall.exec, howns, e]

theorem fineLinear_run (Size : Nat) (s : Linear.St) (w : World) :
    (∀ n, ((fineLinear Size).body (.allocate n)).run (.ok s w) = ((Linear.alloc Size s n).1, Res.ok (Linear.alloc Size s n).2 w)) ∧
    (∀ p n, ((fineLinear Size).body (.deallocate p n)).run (.ok s w) = (0, Res.ok (Linear.dealloc s p n) w)) ∧
    (∀ p, ((fineLinear Size).body (.owns p)).run (.ok s w) = (if Linear.owns Size s p = true then 1 else 0, Res.ok s w)) := by
  refine ⟨fun n => ?_, fun p n => ?_, fun p => ?_⟩
  · unfold Linear.alloc
    by_cases h : addW (subW s.free s.base) (addW n (alignPad n)) > Size
    · simp [fineLinear, Act.run, h]
    · simp [fineLinear, Act.run, h, onOk]
  · unfold Linear.dealloc
    by_cases h1 : subW s.free (addW n (alignPad n)) = p <;> by_cases h2 : subW s.count (addW n (alignPad n)) = 0 <;>
      simp [fineLinear, Act.run, onOk, h1, h2]
  · unfold Linear.owns
    by_cases h1 : s.base ≤ p <;> by_cases h2 : p < addW s.base Size <;> simp [fineLinear, Act.run, h1, h2]

theorem fineLinear_isThreaded (Size : Nat) : IsThreaded (linear Size) (fineLinear Size) := by
  refine ⟨fun _ => rfl, ?_, ?_, ?_⟩
  · intro c s w
    cases c with
    | allocate n => exact (fineLinear_run Size s w).1 n
    | deallocate p n => exact (fineLinear_run Size s w).2.1 p n
    | owns p => exact (fineLinear_run Size s w).2.2 p
    | construct => rfl
    | destroy => rfl
  · intro c w
    cases c <;> rfl
  · intro c
    cases c <;> rfl

theorem onOk_same {St V : Type} {view : St → V} {g : St → St} (h : ∀ s, view (g s) = view s) (r : Res St) : SameFields view r (onOk g r) := by
  intro s' w' e
  cases r with
  | ok s w0 =>
    have e1 : Res.ok (g s) w0 = .ok s' w' := e
    simp only [Res.ok.injEq] at e1
    exact ⟨s, w0, rfl, by rw [← e1.1]; exact h s⟩
  | oom => cases e
  | ub => cases e

theorem fineLinear_ownsReads (Size : Nat) : OwnsReads (linear Size) (Linear.owns Size) Linear.St.base (fineLinear Size) := by
  refine ⟨fun n => ?_, fun p n => ?_, fun p => ?_, fun p v => ?_⟩
  · refine ⟨SameFields.refl _, fun r => ?_⟩
    cases r with
    | ok s w =>
      dsimp only
      split
      · exact trivial
      · exact ⟨onOk_same fun _ => rfl, fun _ => ⟨onOk_same fun _ => rfl, fun _ => trivial⟩⟩
    | oom => exact trivial
    | ub => exact trivial
  · have k : ∀ (c : Prop) [Decidable c] (a b : Linear.St), a.base = b.base → (if c then a else b).base = b.base := by
      intro c _ a b h
      split
      · exact h
      · rfl
    exact ⟨onOk_same fun s => k _ _ _ rfl, fun _ => ⟨onOk_same fun _ => rfl, fun _ => ⟨onOk_same fun s => k _ _ _ rfl, fun _ => trivial⟩⟩⟩
  · refine ⟨fun _ => rfl, fun r => ?_⟩
    cases r with
    | ok s w =>
      dsimp only
      split
      · refine ⟨fun _ => rfl, fun r => ?_⟩
        cases r <;> exact trivial
      · exact trivial
    | oom => exact trivial
    | ub => exact trivial
  · rintro r ⟨s, w, rfl, e⟩
    dsimp only
    by_cases hb : s.base ≤ p
    · rw [if_pos hb]
      rintro r' ⟨s', w', rfl, e'⟩
      show (if p < addW s'.base Size then 1 else 0) = _
      rw [e'] 
      rw [e] at hb
      simp [Linear.owns, hb]
    · rw [if_neg hb]
      rw [e] at hb
      show 0 = _
      simp [Linear.owns, hb]

/-- **C73** for `threaded<linear_allocator<Size>>`, whose calls are the single accesses to its fields: whatever the threads do and however their
accesses interleave, blocks do not overlap, nothing is undefined, and every `owns(p)` says whether `p` lies in the buffer. -/
theorem C73_linear (Size : Nat) (hwf : (AllocTy.linear Size).WF) (b : Nat) (w : World) (hs : Storage w b (AllocTy.linear Size).size)
    (prog : Nat → List (TCall × Nat) → Option TCall) (hprog : LawfulOwns (.linear Size) prog) (sched : List Nat) :
    let m := (Mach.start (.ok ⟨b, b, 0⟩ w)).run (fineLinear Size) prog sched
    (∀ i j, i ≠ j → ∀ x ∈ held (m.threads i).hist, ∀ y ∈ held (m.threads j).hist, NoOverlap x y) ∧
    ((∀ i c a, (m.threads i).phase = .running c a → ∃ p, c = .owns p) → m.mem.isUB = false) ∧
    (∀ s' w', m.mem = .ok s' w' → ∀ i p r, (.owns p, r) ∈ (m.threads i).hist → r = if b ≤ p ∧ p < b + Size then 1 else 0) := by
  intro m
  obtain ⟨_, h2, _, h4, h5⟩ := C73_owns_while_others_allocate_partial (demoSys .direct) (.linear Size) hwf b w hs ⟨b, b, 0⟩ w rfl
    (Linear.owns Size) rfl (fineLinear Size) (fineLinear_isThreaded Size) Linear.St.base (fineLinear_ownsReads Size) prog hprog sched
  refine ⟨h2, fun h => ?_, fun s' w' e i p r hr => ?_⟩
  · have h' := h4 h
    split at h'
    · rename_i e
      exact congrArg Res.isUB e
    · rename_i e
      exact congrArg Res.isUB e
    · exact h'.elim
  · rw [(h5 s' w' e i p r hr).1]
    have hb : addW b Size = b + Size := Nat.mod_eq_of_lt (by
      have h1 := hs.2.2.1
      have h2 : Size ≤ (AllocTy.linear Size).size := by unfold AllocTy.size; omega
      omega)
    simp [Linear.owns, hb]

/-- three threads: two allocate and give back, the third one keeps asking for the address 4200 -/
def twoAllocateOneAsks : Nat → List (TCall × Nat) → Option TCall := fun i h =>
  if i = 2 then some (.owns 4200) else twoAllocators i h

example : LawfulOwns (.linear 256) twoAllocateOneAsks := by
  intro i h c e
  unfold twoAllocateOneAsks at e
  split at e
  · cases e
    exact .inr ⟨_, rfl⟩
  · left
    unfold twoAllocators at e
    split at e
    · split at e
      · cases e; exact ⟨by decide, by decide⟩
      · cases e; exact ⟨by decide, by decide⟩
      · cases hh : (held h).head? with
        | none => rw [hh] at e; cases e
        | some x => rw [hh] at e; cases e; exact List.mem_of_head? hh
      · cases e
    · cases e

/-- `owns` overlaps both allocations: it reads `m_Data` between the accesses of thread 0 -/
example : let m := (Mach.start (.ok ⟨4096, 4096, 0⟩ (demoWorld 512))).run (fineLinear 256) twoAllocateOneAsks [0, 2, 0, 2, 0, 2, 0, 2, 1, 0, 2, 0, 1, 1, 1, 1, 1]
    held (m.threads 0).hist = [(4096, 100)] ∧ held (m.threads 1).hist = [(4208, 100)] ∧ (m.threads 2).hist = [(.owns 4200, 1)] := by
  decide

end KTL
