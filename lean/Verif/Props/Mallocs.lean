import Verif.Props.GiveBack
import Verif.Spec.Asks
import Verif.Spec.Ghost

/- C106: how often `malloc` is called. -/
namespace KTL

/-! ### Specification -/

/-- At most `k` calls of `malloc` (`tick` counts them) lie between `w` and the end. -/
def MallocsAt {α : Type} (k : Nat) (w : World) (r : Res α) : Prop := match r with
  | .ok _ w' => w.tick ≤ w'.tick ∧ w'.tick ≤ w.tick + k
  | .oom w' => w.tick ≤ w'.tick ∧ w'.tick ≤ w.tick + k
  | .ub => True

/-- The same from every state of memory. -/
def Mallocs {α : Type} (k : Nat) (c : M α) : Prop := ∀ w, MallocsAt k w (c w)

namespace AllocTy

/-- How often the constructor may call `malloc`: once for every `shared`, for the block its handles share. -/
def atStart : AllocTy → Nat
  | null => 0
  | mallocator => 0
  | linear _ => 0
  | stack _ => 0
  | freelist _ _ A => A.atStart
  | fallback P F => P.atStart + F.atStart
  | segragator _ P F => P.atStart + F.atStart
  | cascading _ => 0
  | overflow A => A.atStart
  | threaded A => A.atStart
  | shared A => 1 + A.atStart
  | reference A => A.atStart

/-- How often one call of `allocate` may call `malloc`. `fallback` may ask both, `segragator` asks one of the two, `cascading` may make a first
instance and, if that one refuses, another. -/
def perRequest : AllocTy → Nat
  | null => 0
  | mallocator => 1
  | linear _ => 0
  | stack _ => 0
  | freelist _ _ A => A.perRequest
  | fallback P F => P.perRequest + F.perRequest
  | segragator _ P F => max P.perRequest F.perRequest
  | cascading A => 2 * (1 + A.atStart + A.perRequest)
  | overflow A => A.perRequest
  | threaded A => A.perRequest
  | shared A => A.perRequest
  | reference A => A.perRequest

end AllocTy

/-- requests of a client -/
def Op.isRequest : Op → Bool
  | .allocate _ => true
  | _ => false

/-- calls of `malloc` by somebody else -/
def Op.isForeign : Op → Bool
  | .foreign _ => true
  | _ => false

/-! ### Allocators -/

theorem Frugal.mallocs {α : Type} {c : M α} (h : Frugal c) : Mallocs 0 c := by
  intro w
  have := h w
  cases e : c w with
  | ok a w' => rw [e] at this; exact ⟨Nat.le_of_eq this.symm, Nat.le_of_eq this⟩
  | oom w' => rw [e] at this; exact this.elim
  | ub => trivial

namespace Mallocs
variable {α β : Type} {k l : Nat}

theorem pure (a : α) : Mallocs k (Pure.pure a : M α) := fun _ => ⟨Nat.le_refl _, Nat.le_add_right _ _⟩
theorem ub : Mallocs k (M.ub : M α) := fun _ => trivial
theorem oom : Mallocs k (M.oom : M α) := fun _ => ⟨Nat.le_refl _, Nat.le_add_right _ _⟩
theorem event (e : Ev) : Mallocs k (M.event e) := fun _ => ⟨Nat.le_refl _, Nat.le_add_right _ _⟩
theorem mono {c : M α} (h : Mallocs k c) (hk : k ≤ l) : Mallocs l c := by
  intro w
  have := h w
  cases e : c w with
  | ok a w' => rw [e] at this; exact ⟨this.1, Nat.le_trans this.2 (by omega)⟩
  | oom w' => rw [e] at this; exact ⟨this.1, Nat.le_trans this.2 (by omega)⟩
  | ub => trivial
theorem bind {c : M α} {f : α → M β} (h : Mallocs k c) (hf : ∀ a, Mallocs l (f a)) : Mallocs (k + l) (c >>= f) := by
  intro w
  rw [M.bind_apply]
  have h1 := h w
  cases e : c w with
  | ok a w' =>
    rw [e] at h1
    have h2 := hf a w'
    show MallocsAt (k + l) w (f a w')
    have h3 : w.tick ≤ w'.tick ∧ w'.tick ≤ w.tick + k := h1
    cases e2 : f a w' with
    | ok b w2 =>
      rw [e2] at h2
      have h4 : w'.tick ≤ w2.tick ∧ w2.tick ≤ w'.tick + l := h2
      exact ⟨by omega, by omega⟩
    | oom w2 =>
      rw [e2] at h2
      have h4 : w'.tick ≤ w2.tick ∧ w2.tick ≤ w'.tick + l := h2
      exact ⟨by omega, by omega⟩
    | ub => trivial
  | oom w' =>
    rw [e] at h1
    have h3 : w.tick ≤ w'.tick ∧ w'.tick ≤ w.tick + k := h1
    exact ⟨by omega, by omega⟩
  | ub => trivial
theorem bind0 {c : M α} {f : α → M β} (h : Mallocs 0 c) (hf : ∀ a, Mallocs k (f a)) : Mallocs k (c >>= f) := by
  have := bind h hf
  rwa [Nat.zero_add] at this
theorem ite {p : Prop} [Decidable p] {x y : M α} (h1 : Mallocs k x) (h2 : Mallocs k y) : Mallocs k (if p then x else y) := by
  split
  · exact h1
  · exact h2
/-- what is computed from the result in the end does not matter -/
theorem of_map {c : M α} {g : α → β} (h : Mallocs k (c >>= fun a => Pure.pure (g a))) : Mallocs k c := by
  intro w
  have := h w
  rw [M.bind_apply] at this
  cases e : c w with
  | ok a w' => rw [e] at this; exact this
  | oom w' => rw [e] at this; exact this
  | ub => trivial
theorem nullDeref : Mallocs k (M.nullDeref : M α) := by
  intro w
  unfold M.nullDeref
  by_cases h : w.failed = true
  · rw [if_pos h]; exact ⟨Nat.le_refl _, Nat.le_add_right _ _⟩
  · rw [if_neg h]; trivial
theorem cMalloc (sys : Sys) (n : Nat) : Mallocs 1 (cMalloc sys n) := by
  intro w
  unfold KTL.cMalloc
  cases sys.malloc w.tick w.heap n with
  | none => exact ⟨Nat.le_succ _, Nat.le_refl _⟩
  | some x => exact ⟨Nat.le_succ _, Nat.le_refl _⟩
theorem alignedMalloc (sys : Sys) (n : Nat) : Mallocs 1 (alignedMalloc sys n) := by
  unfold KTL.alignedMalloc
  split
  · exact cMalloc sys n
  · exact bind (l := 0) (cMalloc sys _) fun _ => ite (bind0 (Frugal.writePtr _ _).mallocs fun _ => pure _) (pure _)
theorem alignedNew (sys : Sys) (n : Nat) {ctor : Nat → M α} (h : ∀ b, Mallocs k (ctor b)) : Mallocs (1 + k) (alignedNew sys n ctor) :=
  bind (alignedMalloc sys n) fun _ => ite nullDeref (bind (l := 0) (h _) fun _ => pure _)
theorem newNode (sys : Sys) {A : Allocator} (h : ∀ b, Mallocs k (A.init b)) : Mallocs (1 + k) (Cascading.newNode sys A) :=
  bind (l := 0) (alignedNew sys _ h) fun _ => pure _
theorem allocFront (sys : Sys) {A : Allocator} (hi : ∀ b, Mallocs k (A.init b)) (ha : ∀ s n, Mallocs l (A.alloc s n)) (nd : Cascading.Node A.St)
    (rest : List (Cascading.Node A.St)) (n : Nat) : Mallocs (l + (1 + k + l)) (Cascading.allocFront sys A nd rest n) :=
  bind (ha _ _) fun _ => ite (bind (newNode sys hi) fun _ => bind (l := 0) (ha _ _) fun _ => pure _) (pure _)
theorem route (A : Allocator) (c : A.St → Nat → M A.St) (hc : ∀ s p, Mallocs 0 (c s p)) (ev : Nat → Ev) (p : Nat) (s : List (Cascading.Node A.St)) :
    Mallocs 0 (Cascading.routeGo A c ev p s) := by
  induction s with
  | nil => exact bind0 (event _) fun _ => pure _
  | cons nd s ih => exact ite (bind0 (hc _ _) fun _ => pure _) (bind0 ih fun _ => pure _)
theorem route2 (P F : Allocator) (cP : Option (P.St → Nat → M P.St)) (cF : Option (F.St → Nat → M F.St)) (ev : Nat → Ev)
    (hP : ∀ f, cP = some f → ∀ s p, Mallocs 0 (f s p)) (hF : ∀ f, cF = some f → ∀ s p, Mallocs 0 (f s p))
    (g : P.St × F.St → Nat → M (P.St × F.St)) (hg : KTL.route2 P F cP cF ev = some g) (s : P.St × F.St) (p : Nat) : Mallocs 0 (g s p) := by
  unfold KTL.route2 at hg
  by_cases h : (cP.isSome || cF.isSome) = true
  · rw [if_pos h] at hg
    cases hg
    dsimp only
    cases hO : P.ownsD s.1 p with
    | true =>
      cases hc : cP with
      | some c => exact bind0 (hP c hc _ _) fun _ => pure _
      | none => cases cF <;> exact bind0 (event _) fun _ => pure _
    | false =>
      cases hc : cF with
      | some c => cases cP <;> exact bind0 (hF c hc _ _) fun _ => pure _
      | none => cases cP <;> exact bind0 (event _) fun _ => pure _
  · rw [if_neg h] at hg; cases hg

end Mallocs

theorem mallocs_alloc (sys : Sys) (t : AllocTy) :
    (∀ b, Mallocs t.atStart ((t.denote sys).init b)) ∧ ∀ (s : (t.denote sys).St) n, Mallocs t.perRequest ((t.denote sys).alloc s n) := by
  induction t with
  | null => exact ⟨fun _ => Mallocs.pure _, fun _ _ => Mallocs.pure _⟩
  | mallocator => exact ⟨fun _ => Mallocs.pure _, fun _ _ => Mallocs.bind (l := 0) (Mallocs.alignedMalloc sys _) fun _ => Mallocs.pure _⟩
  | linear S => exact ⟨fun _ => Mallocs.pure _, fun _ _ => Mallocs.pure _⟩
  | stack S => exact ⟨fun _ => Mallocs.pure _, fun _ _ => Mallocs.pure _⟩
  | freelist m M A ih =>
    exact ⟨fun _ => Mallocs.bind (l := 0) (ih.1 _) fun _ => Mallocs.pure _,
      fun _ _ => Mallocs.ite (Mallocs.ite (Mallocs.bind0 (Frugal.readPtr _).mallocs fun _ => Mallocs.pure _)
        (Mallocs.bind (l := 0) (ih.2 _ _) fun _ => Mallocs.pure _)) (Mallocs.pure _)⟩
  | fallback P F ihP ihF =>
    exact ⟨fun _ => Mallocs.bind (ihP.1 _) fun _ => Mallocs.bind (l := 0) (ihF.1 _) fun _ => Mallocs.pure _,
      fun _ _ => Mallocs.bind (ihP.2 _ _) fun _ => Mallocs.ite (Mallocs.bind (l := 0) (ihF.2 _ _) fun _ => Mallocs.pure _) (Mallocs.pure _)⟩
  | segragator T P F ihP ihF =>
    exact ⟨fun _ => Mallocs.bind (ihP.1 _) fun _ => Mallocs.bind (l := 0) (ihF.1 _) fun _ => Mallocs.pure _,
      fun _ _ => Mallocs.ite (Mallocs.bind (l := 0) ((ihP.2 _ _).mono (Nat.le_max_left _ _)) fun _ => Mallocs.pure _)
        (Mallocs.bind (l := 0) ((ihF.2 _ _).mono (Nat.le_max_right _ _)) fun _ => Mallocs.pure _)⟩
  | cascading A ih =>
    refine ⟨fun _ => Mallocs.pure _, fun s n => ?_⟩
    have h1 : Mallocs (1 + A.atStart) (Cascading.ensure sys (A.denote sys) s) := by
      cases s with
      | nil => exact Mallocs.bind (l := 0) (Mallocs.newNode sys ih.1) fun _ => Mallocs.pure _
      | cons nd s => exact Mallocs.pure _
    refine Mallocs.mono (k := (1 + A.atStart) + (A.perRequest + (1 + A.atStart + A.perRequest))) (Mallocs.bind h1 fun s' => ?_)
      (show _ ≤ 2 * (1 + A.atStart + A.perRequest) by omega)
    cases s' with
    | nil => exact Mallocs.ub
    | cons nd rest =>
      have hF := Mallocs.allocFront sys ih.1 ih.2 nd rest n
      dsimp only
      cases (A.denote sys).maxSize with
      | none => exact hF
      | some f =>
        dsimp only
        cases f nd.st with
        | none => exact Mallocs.ub
        | some m => exact Mallocs.ite (Mallocs.pure _) hF
  | overflow A ih =>
    exact ⟨fun _ => Mallocs.bind (l := 0) (ih.1 _) fun _ => Mallocs.pure _,
      fun _ _ => Mallocs.bind (l := 0) (ih.2 _ _) fun _ => Mallocs.ite (Mallocs.pure _) (Mallocs.bind0 (Frugal.writeBytes _ _).mallocs fun _ =>
        Mallocs.bind0 (Frugal.writeBytes _ _).mallocs fun _ => Mallocs.pure _)⟩
  | threaded A ih => exact ih
  | shared A ih => exact ⟨fun _ => Mallocs.alignedNew sys _ ih.1, fun _ _ => Mallocs.bind (l := 0) (ih.2 _ _) fun _ => Mallocs.pure _⟩
  | reference A ih => exact ih

theorem mallocs_construct (sys : Sys) (t : AllocTy) :
    (∀ f, (t.denote sys).construct = some f → ∀ s p, Mallocs 0 (f s p)) ∧ ∀ f, (t.denote sys).destroy = some f → ∀ s p, Mallocs 0 (f s p) := by
  induction t with
  | null => exact ⟨fun _ h => (nomatch h), fun _ h => (nomatch h)⟩
  | mallocator => exact ⟨fun _ h => (nomatch h), fun _ h => (nomatch h)⟩
  | linear S => exact ⟨fun _ h => (nomatch h), fun _ h => (nomatch h)⟩
  | stack S => exact ⟨fun _ h => (nomatch h), fun _ h => (nomatch h)⟩
  | freelist m M A ih =>
    constructor
    · intro f h s p
      obtain ⟨g, hg, rfl⟩ := Option.map_eq_some_iff.1 h
      exact Mallocs.bind0 (ih.1 g hg _ _) fun _ => Mallocs.pure _
    · intro f h s p
      obtain ⟨g, hg, rfl⟩ := Option.map_eq_some_iff.1 h
      exact Mallocs.bind0 (ih.2 g hg _ _) fun _ => Mallocs.pure _
  | fallback P F ihP ihF =>
    exact ⟨fun f h => Mallocs.route2 _ _ _ _ _ ihP.1 ihF.1 f h, fun f h => Mallocs.route2 _ _ _ _ _ ihP.2 ihF.2 f h⟩
  | segragator T P F ihP ihF =>
    exact ⟨fun f h => Mallocs.route2 _ _ _ _ _ ihP.1 ihF.1 f h, fun f h => Mallocs.route2 _ _ _ _ _ ihP.2 ihF.2 f h⟩
  | cascading A ih =>
    constructor
    · intro f h s p
      obtain ⟨g, hg, rfl⟩ := Option.map_eq_some_iff.1 h
      exact Mallocs.route _ g (ih.1 g hg) _ p s
    · intro f h s p
      obtain ⟨g, hg, rfl⟩ := Option.map_eq_some_iff.1 h
      exact Mallocs.route _ g (ih.2 g hg) _ p s
  | overflow A ih =>
    constructor
    · intro f h s p
      cases h
      dsimp only
      cases hc : (A.denote sys).construct with
      | some c => exact Mallocs.bind0 (ih.1 c hc _ _) fun _ => Mallocs.pure _
      | none => exact Mallocs.bind0 (Mallocs.event _) fun _ => Mallocs.pure _
    · intro f h s p
      cases h
      dsimp only
      cases hc : (A.denote sys).destroy with
      | some c => exact Mallocs.bind0 (ih.2 c hc _ _) fun _ => Mallocs.pure _
      | none => exact Mallocs.bind0 (Mallocs.event _) fun _ => Mallocs.pure _
  | threaded A ih => exact ih
  | shared A ih =>
    constructor
    · intro f h s p
      obtain ⟨g, hg, rfl⟩ := Option.map_eq_some_iff.1 h
      exact Mallocs.bind0 (ih.1 g hg _ _) fun _ => Mallocs.pure _
    · intro f h s p
      obtain ⟨g, hg, rfl⟩ := Option.map_eq_some_iff.1 h
      exact Mallocs.bind0 (ih.2 g hg _ _) fun _ => Mallocs.pure _
  | reference A ih => exact ih

/-! ### Programs -/

theorem Mallocs.seq {α : Type} {A : Allocator} {k : Nat} (ha : ∀ s n, Mallocs k (A.alloc s n)) (hd : ∀ s p n, Mallocs 0 (A.dealloc s p n))
    (x : Prog α) {m : Nat} (h : x.Asks m) (s : A.St) : Mallocs (m * k) (x.seq A s) := by
  induction x generalizing m s with
  | ret a => exact Mallocs.pure _
  | stop => exact Mallocs.oom
  | ub => exact Mallocs.ub
  | load p f ih => exact Mallocs.bind0 (Frugal.load p).mallocs fun v => ih v (h v) s
  | store p v f ih => exact Mallocs.bind0 (Frugal.store p v).mallocs fun _ => ih h s
  | alloc n f ih =>
    obtain ⟨m', rfl, hf⟩ := h
    exact (Mallocs.bind (ha s n) fun r => ih r.1 (hf r.1) r.2).mono (by rw [Nat.add_mul]; omega)
  | dealloc p n f ih => exact Mallocs.bind0 (hd s p n) fun s' => ih h s'

theorem mallocs_step (sys : Sys) (t : AllocTy) (c : Client (t.denote sys)) (o : Op) :
    Mallocs ((if o.isRequest then t.perRequest else 0) + if o.isForeign then 1 else 0) (c.step sys o) := by
  cases o with
  | allocate n =>
    exact Mallocs.bind (l := 0) ((mallocs_alloc sys t).2 _ _) fun _ => Mallocs.ite (Mallocs.pure _)
      (Mallocs.bind0 (Frugal.readBytes _ _).mallocs fun _ => Mallocs.pure _)
  | deallocate i =>
    simp only [Client.step]
    cases c.live[i]? with
    | none => exact Mallocs.pure _
    | some b => exact Mallocs.bind0 ((frugal_dealloc sys t).1 _ _ _).mallocs fun _ => Mallocs.pure _
  | write i off v =>
    simp only [Client.step]
    cases c.live[i]? with
    | none => exact Mallocs.pure _
    | some b => exact Mallocs.ite (Mallocs.bind0 (Frugal.store _ _).mallocs fun _ => Mallocs.pure _) (Mallocs.pure _)
  | construct i off =>
    simp only [Client.step]
    cases c.live[i]? with
    | none => exact Mallocs.pure _
    | some b =>
      refine Mallocs.bind0 ?_ fun _ => Mallocs.pure _
      unfold callOpt
      cases hc : (t.denote sys).construct with
      | none => exact Mallocs.pure _
      | some f => exact (mallocs_construct sys t).1 f hc _ _
  | destroy i off =>
    simp only [Client.step]
    cases c.live[i]? with
    | none => exact Mallocs.pure _
    | some b =>
      refine Mallocs.bind0 ?_ fun _ => Mallocs.pure _
      unfold callOpt
      cases hc : (t.denote sys).destroy with
      | none => exact Mallocs.pure _
      | some f => exact (mallocs_construct sys t).2 f hc _ _
  | foreign n =>
    exact Mallocs.bind (l := 0) (Mallocs.cMalloc sys n) fun _ => Mallocs.ite (Mallocs.pure _)
      (Mallocs.bind0 (Frugal.readBytes _ _).mallocs fun _ => Mallocs.pure _)

theorem mallocs_run (sys : Sys) (t : AllocTy) (ops : List Op) (c : Client (t.denote sys)) :
    Mallocs (ops.countP Op.isRequest * t.perRequest + ops.countP Op.isForeign) (c.run sys ops) := by
  induction ops generalizing c with
  | nil => exact Mallocs.pure _
  | cons o os ih =>
    refine (Mallocs.bind (mallocs_step sys t c o) fun c' => ih c').mono ?_
    rw [List.countP_cons, List.countP_cons, Nat.add_mul]
    by_cases h1 : o.isRequest = true <;> by_cases h2 : o.isForeign = true <;> simp [h1, h2] <;> omega

/-! ### The property -/

/-- **C106, one call.** In any state and for any arguments the constructor calls `malloc` at most `atStart` times, and `allocate` at most
`perRequest` times: numbers that depend on the type of the allocator alone. `deallocate`, `construct`, `destroy` and the destructor do not call it. -/
theorem C106_calls (sys : Sys) (t : AllocTy) :
    (∀ b, Mallocs t.atStart ((t.denote sys).init b)) ∧
    (∀ (s : (t.denote sys).St) n, Mallocs t.perRequest ((t.denote sys).alloc s n)) ∧
    (∀ (s : (t.denote sys).St) p n, Mallocs 0 ((t.denote sys).dealloc s p n)) ∧
    (∀ f, (t.denote sys).construct = some f → ∀ s p, Mallocs 0 (f s p)) ∧
    (∀ f, (t.denote sys).destroy = some f → ∀ s p, Mallocs 0 (f s p)) ∧
    ∀ s : (t.denote sys).St, Mallocs 0 ((t.denote sys).fini s) :=
  ⟨(mallocs_alloc sys t).1, (mallocs_alloc sys t).2, fun s p n => ((frugal_dealloc sys t).1 s p n).mallocs, (mallocs_construct sys t).1,
    (mallocs_construct sys t).2, fun s => ((frugal_dealloc sys t).2 s).mallocs⟩

/-- **C106, fixed buffers.** The numbers are 0 exactly for the allocators without a `mallocator`, `cascading` or `shared` in them. -/
theorem C106_buffers (t : AllocTy) : t.usesMalloc = false ↔ t.atStart = 0 ∧ t.perRequest = 0 := by
  induction t with
  | null => simp [AllocTy.usesMalloc, AllocTy.atStart, AllocTy.perRequest]
  | mallocator => simp [AllocTy.usesMalloc, AllocTy.atStart, AllocTy.perRequest]
  | linear S => simp [AllocTy.usesMalloc, AllocTy.atStart, AllocTy.perRequest]
  | stack S => simp [AllocTy.usesMalloc, AllocTy.atStart, AllocTy.perRequest]
  | freelist m M A ih => exact ih
  | fallback P F ihP ihF =>
    simp only [AllocTy.usesMalloc, AllocTy.atStart, AllocTy.perRequest, Bool.or_eq_false_iff, ihP, ihF]
    omega
  | segragator T P F ihP ihF =>
    simp only [AllocTy.usesMalloc, AllocTy.atStart, AllocTy.perRequest, Bool.or_eq_false_iff, ihP, ihF]
    omega
  | cascading A ih =>
    simp only [AllocTy.usesMalloc, AllocTy.atStart, AllocTy.perRequest]
    constructor
    · intro h; cases h
    · intro h; omega
  | overflow A ih => exact ih
  | threaded A ih => exact ih
  | shared A ih =>
    simp only [AllocTy.usesMalloc, AllocTy.atStart, AllocTy.perRequest]
    constructor
    · intro h; cases h
    · intro h; omega
  | reference A ih => exact ih

/-- **C106, histories.** A program that uses an allocator in any way calls `malloc` at most `atStart` times, and `perRequest` times for each request. -/
theorem C106_histories (sys : Sys) (t : AllocTy) (b : Nat) (ops : List Op) :
    Mallocs (t.atStart + ops.countP Op.isRequest * t.perRequest + ops.countP Op.isForeign) (play sys (t.denote sys) b ops) :=
  (Mallocs.bind ((mallocs_alloc sys t).1 b) fun _ => mallocs_run sys t ops _).mono (by omega)

/-- **C106, vectors.** A program with vectors calls `malloc` at most `atStart` times, and `perRequest` times for each operation, from the construction of
the allocator to its destruction. -/
theorem C106_vectors (sys : Sys) (t : AllocTy) (b sz : Nat) (ops : List VOp) :
    Mallocs (t.atStart + ops.length * t.perRequest) (vlife sz (t.denote sys) b ops) := by
  have h := fun s => Mallocs.seq (mallocs_alloc sys t).2 (fun s p n => ((frugal_dealloc sys t).1 s p n).mallocs) (vthread sz ops) (Prog.Asks.vthread sz ops) s
  have e : vlife sz (t.denote sys) b ops = (t.denote sys).init b >>= fun s => (vthread sz ops).seq (t.denote sys) s >>= fun r => (t.denote sys).fini r.1 := by
    simp only [seq_vthread, vlife, vplay, bind_assoc, pure_bind]
  rw [e]
  exact Mallocs.bind ((mallocs_alloc sys t).1 b) fun s => Mallocs.bind (l := 0) (h s) fun r => ((frugal_dealloc sys t).2 r.1).mallocs

/-- **C106, arrays.** -/
theorem C106_arrays (sys : Sys) (t : AllocTy) (b sz : Nat) (ops : List ArrOp) :
    Mallocs (t.atStart + ops.length * t.perRequest) (alife sz (t.denote sys) b ops) := by
  have h := fun s => Mallocs.seq (mallocs_alloc sys t).2 (fun s p n => ((frugal_dealloc sys t).1 s p n).mallocs) (athread sz ops) (Prog.Asks.athread sz ops) s
  have e : alife sz (t.denote sys) b ops = (t.denote sys).init b >>= fun s => (athread sz ops).seq (t.denote sys) s >>= fun r => (t.denote sys).fini r.1 := by
    simp only [seq_athread, alife, aplay, bind_assoc, pure_bind]
  rw [e]
  exact Mallocs.bind ((mallocs_alloc sys t).1 b) fun s => Mallocs.bind (l := 0) (h s) fun r => ((frugal_dealloc sys t).2 r.1).mallocs

/-- **C106, heaps.** The constructor from a list may ask once for every element and once more, the other operations once. -/
theorem C106_heaps {α : Type} (sys : Sys) (t : AllocTy) (b : Nat) (E : Elt α) (comp eq : α → α → Bool) (ops : List (BOp α)) :
    Mallocs (t.atStart + (ops.map BOp.asks).sum * t.perRequest) (hlife E comp eq (t.denote sys) b ops) := by
  have h := fun s => Mallocs.seq (mallocs_alloc sys t).2 (fun s p n => ((frugal_dealloc sys t).1 s p n).mallocs) (hthread E comp eq ops)
    (Prog.Asks.hthread E comp eq ops) s
  have h2 : ∀ s : (t.denote sys).St, Mallocs ((ops.map BOp.asks).sum * t.perRequest) (BHeaps.run E comp eq ⟨s, fun _ => none, [], []⟩ ops >>= fun c =>
      BHeaps.destroyAll E c.st c.objs c.hs >>= fun x => pure (x, c.seen)) := by
    intro s
    refine Mallocs.of_map (g := fun y => (y.1.1, y.2.map (HObs.bytes E))) ?_
    have := h s
    rw [seq_hthread] at this
    simpa only [bind_assoc, pure_bind] using this
  have e : hlife E comp eq (t.denote sys) b ops = (t.denote sys).init b >>= fun s => (BHeaps.run E comp eq ⟨s, fun _ => none, [], []⟩ ops >>= fun c =>
      BHeaps.destroyAll E c.st c.objs c.hs >>= fun x => pure (x, c.seen)) >>= fun y => (t.denote sys).fini y.1.1 >>= fun _ => pure y.1.2 := by
    simp only [hlife, hplay, bind_assoc, pure_bind]
  rw [e]
  exact Mallocs.bind ((mallocs_alloc sys t).1 b) fun s => Mallocs.bind (l := 0) (h2 s) fun y =>
    Mallocs.bind0 ((frugal_dealloc sys t).2 _).mallocs fun _ => Mallocs.pure _

/-- **C106, containers in fixed buffers.** Programs with containers over an allocator without a `mallocator`, `cascading` or `shared` never call `malloc`. -/
theorem C106_no_malloc {α : Type} (sys : Sys) (t : AllocTy) (ht : t.usesMalloc = false) (b sz : Nat) (E : Elt α) (comp eq : α → α → Bool) :
    (∀ ops : List VOp, Mallocs 0 (vlife sz (t.denote sys) b ops)) ∧ (∀ ops : List ArrOp, Mallocs 0 (alife sz (t.denote sys) b ops)) ∧
    ∀ ops : List (BOp α), Mallocs 0 (hlife E comp eq (t.denote sys) b ops) := by
  obtain ⟨h1, h2⟩ := (C106_buffers t).1 ht
  have e : ∀ n, t.atStart + n * t.perRequest = 0 := fun n => by rw [h1, h2, Nat.mul_zero]
  exact ⟨fun ops => e _ ▸ C106_vectors sys t b sz ops, fun ops => e _ ▸ C106_arrays sys t b sz ops, fun ops => e _ ▸ C106_heaps sys t b E comp eq ops⟩

/-! ### Concrete instances -/

/-- a free list over a buffer, guarded: no `malloc` at all -/
example : (AllocTy.overflow (.freelist 0 256 (.linear 4096))).usesMalloc = false := rfl

/-- The numbers of some compositions. -/
example : (AllocTy.mallocator).perRequest = 1 ∧ (AllocTy.fallback (.linear 1024) .mallocator).perRequest = 1 ∧
    (AllocTy.cascading (.linear 1024)).perRequest = 2 ∧ (AllocTy.shared (.freelist 0 64 .mallocator)).atStart = 1 := by decide

/-- Both calls of `malloc` do happen: a `cascading` whose first instance is too small. -/
example : (play (demoSys .direct) ((AllocTy.cascading (.linear 20)).denote (demoSys .direct)) 4096 [.allocate 20]
    (demoWorld (AllocTy.cascading (.linear 20)).size)).test (fun _ w => w.tick == 2) = true := by decide +kernel

/-- A program with vectors, five operations: three calls of `malloc`. -/
example : (vlife 4 ((AllocTy.overflow .mallocator).denote (demoSys .direct)) 4096
    [.newSize 2, .push 0 [1, 2, 3, 4], .erase 0 0, .reserve 0 3, .copy 0] (demoWorld 32)).test (fun _ w => w.tick == 3) = true := by decide +kernel

end KTL
