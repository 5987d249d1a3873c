import Verif.Props.Cascading

/- C57–C59: construct/destroy, zero-size blocks, nested cascades. -/
namespace KTL
open Cascading

/-! ### C57 -/

/-- `c` has exactly one effect on the world: the event `ev p` -/
def Once {α : Type} (c : α → Nat → M α) (ev : Nat → Ev) : Prop :=
  ∀ s p w, ∃ s', c s p w = .ok s' { w with log := w.log ++ [ev p] }

theorem once_bind {α β : Type} {c : M α} {w w' : World} {a : α} {f : α → β} (h : c w = .ok a w') :
    ∃ b, (c >>= fun a => pure (f a)) w = .ok b w' := ⟨f a, bind_of_ok h⟩

theorem once_route2 {P F : Allocator} {cP : Option (P.St → Nat → M P.St)} {cF : Option (F.St → Nat → M F.St)} {ev : Nat → Ev}
    (hP : ∀ c, cP = some c → Once c ev) (hF : ∀ c, cF = some c → Once c ev) (c : P.St × F.St → Nat → M (P.St × F.St))
    (hc : route2 P F cP cF ev = some c) : Once c ev := by
  unfold route2 at hc
  split at hc
  · cases hc
    intro s p w
    cases ho : P.ownsD s.1 p with
    | true =>
      cases cP with
      | none => exact ⟨s, by simp only [ho]; rfl⟩
      | some c =>
        obtain ⟨s', h⟩ := hP _ rfl s.1 p w
        simp only [ho]
        exact once_bind (f := fun s1 => (s1, s.2)) h
    | false =>
      cases cF with
      | none => exact ⟨s, by simp only [ho]; rfl⟩
      | some c =>
        obtain ⟨s', h⟩ := hF _ rfl s.2 p w
        simp only [ho]
        exact once_bind (f := fun s1 => (s.1, s1)) h
  · cases hc

theorem once_routeGo {A : Allocator} {c : A.St → Nat → M A.St} {ev : Nat → Ev} (h : Once c ev) :
    Once (fun s p => routeGo A c ev p s) ev := by
  intro s p w
  simp only
  induction s with
  | nil => exact ⟨[], rfl⟩
  | cons nd rest ih =>
    unfold routeGo
    split
    · obtain ⟨s', h⟩ := h nd.st p w
      exact once_bind (f := fun st => (⟨nd.addr, st, nd.cnt⟩ : Node A.St) :: rest) h
    · obtain ⟨s', h⟩ := ih
      exact once_bind (f := fun r => nd :: r) h

/-- **C57.** Through any composed allocator that has `construct`, `construct(p)` constructs exactly one object, at
`p`, and touches nothing else in memory; likewise `destroy`. -/
theorem C57_exactly_one_object (sys : Sys) : ∀ t : AllocTy,
    (∀ c, (t.denote sys).construct = some c → ∀ s p w, ∃ s', c s p w = .ok s' { w with log := w.log ++ [.ctor p] }) ∧
    (∀ c, (t.denote sys).destroy = some c → ∀ s p w, ∃ s', c s p w = .ok s' { w with log := w.log ++ [.dtor p] })
  | .null => ⟨(fun _ h => nomatch h), (fun _ h => nomatch h)⟩
  | .mallocator => ⟨(fun _ h => nomatch h), (fun _ h => nomatch h)⟩
  | .linear _ => ⟨(fun _ h => nomatch h), (fun _ h => nomatch h)⟩
  | .stack _ => ⟨(fun _ h => nomatch h), (fun _ h => nomatch h)⟩
  | .freelist m M A => by
    obtain ⟨h1, h2⟩ := C57_exactly_one_object sys A
    constructor
    · intro c hc
      obtain ⟨c', hc', e⟩ := Option.map_eq_some_iff.1 (show Option.map _ (A.denote sys).construct = some c from hc)
      subst e
      intro s p w
      obtain ⟨s', h⟩ := h1 c' hc' s.a p w
      exact once_bind (f := fun a => (⟨a, s.free⟩ : Freelist.St (A.denote sys).St)) h
    · intro c hc
      obtain ⟨c', hc', e⟩ := Option.map_eq_some_iff.1 (show Option.map _ (A.denote sys).destroy = some c from hc)
      subst e
      intro s p w
      obtain ⟨s', h⟩ := h2 c' hc' s.a p w
      exact once_bind (f := fun a => (⟨a, s.free⟩ : Freelist.St (A.denote sys).St)) h
  | .fallback P F => by
    obtain ⟨h1, h2⟩ := C57_exactly_one_object sys P
    obtain ⟨h3, h4⟩ := C57_exactly_one_object sys F
    exact ⟨fun c hc => once_route2 h1 h3 c hc, fun c hc => once_route2 h2 h4 c hc⟩
  | .segragator T P F => by
    obtain ⟨h1, h2⟩ := C57_exactly_one_object sys P
    obtain ⟨h3, h4⟩ := C57_exactly_one_object sys F
    exact ⟨fun c hc => once_route2 h1 h3 c hc, fun c hc => once_route2 h2 h4 c hc⟩
  | .cascading A => by
    obtain ⟨h1, h2⟩ := C57_exactly_one_object sys A
    constructor
    · intro c hc
      obtain ⟨c', hc', e⟩ := Option.map_eq_some_iff.1 (show Option.map _ (A.denote sys).construct = some c from hc)
      subst e
      exact once_routeGo (h1 c' hc')
    · intro c hc
      obtain ⟨c', hc', e⟩ := Option.map_eq_some_iff.1 (show Option.map _ (A.denote sys).destroy = some c from hc)
      subst e
      exact once_routeGo (h2 c' hc')
  | .overflow A => by
    obtain ⟨h1, h2⟩ := C57_exactly_one_object sys A
    constructor
    · intro c hc s p w
      cases hc
      cases hc' : (A.denote sys).construct with
      | none => exact ⟨(⟨s.a, s.allocs, s.constructs + 1⟩ : Overflow.St (A.denote sys).St), by simp only [hc']; rfl⟩
      | some c' =>
        obtain ⟨s', h⟩ := h1 c' hc' s.a p w
        simp only [hc']
        exact once_bind (f := fun a => (⟨a, s.allocs, s.constructs + 1⟩ : Overflow.St (A.denote sys).St)) h
    · intro c hc s p w
      cases hc
      cases hc' : (A.denote sys).destroy with
      | none => exact ⟨(⟨s.a, s.allocs, s.constructs - 1⟩ : Overflow.St (A.denote sys).St), by simp only [hc']; rfl⟩
      | some c' =>
        obtain ⟨s', h⟩ := h2 c' hc' s.a p w
        simp only [hc']
        exact once_bind (f := fun a => (⟨a, s.allocs, s.constructs - 1⟩ : Overflow.St (A.denote sys).St)) h
  | .threaded A => C57_exactly_one_object sys A
  | .shared A => by
    obtain ⟨h1, h2⟩ := C57_exactly_one_object sys A
    constructor
    · intro c hc
      obtain ⟨c', hc', e⟩ := Option.map_eq_some_iff.1 (show Option.map _ (A.denote sys).construct = some c from hc)
      subst e
      intro s p w
      obtain ⟨s', h⟩ := h1 c' hc' s.2 p w
      exact once_bind (f := fun a => ((s.1, a) : Nat × (A.denote sys).St)) h
    · intro c hc
      obtain ⟨c', hc', e⟩ := Option.map_eq_some_iff.1 (show Option.map _ (A.denote sys).destroy = some c from hc)
      subst e
      intro s p w
      obtain ⟨s', h⟩ := h2 c' hc' s.2 p w
      exact once_bind (f := fun a => ((s.1, a) : Nat × (A.denote sys).St)) h
  | .reference A => C57_exactly_one_object sys A

/-- **C57, routing.** `fallback` and `segragator` pass `construct(p)` to the primary if it owns `p` (and has the
member), else to the fallback, and leave the other part alone. -/
theorem C57_routed_by_ownership (P F : Allocator) (T : Nat) (s : P.St) (t : F.St) (p : Nat)
    (c : P.St × F.St → Nat → M (P.St × F.St))
    (hc : (fallback P F).construct = some c ∨ (segragator T P F).construct = some c) :
    (P.ownsD s p = true → ∀ cP, P.construct = some cP → c (s, t) p = (cP s p >>= fun s' => pure (s', t))) ∧
    (P.ownsD s p = false → ∀ cF, F.construct = some cF → c (s, t) p = (cF t p >>= fun t' => pure (s, t'))) := by
  have hc' : route2 P F P.construct F.construct .ctor = some c := by rcases hc with h | h <;> exact h
  unfold route2 at hc'
  split at hc'
  · cases hc'
    constructor
    · intro h cP hP
      simp only [h, hP]
    · intro h cF hF
      cases hP : P.construct <;> simp only [h, hF]
  · cases hc'

/-! ### C58 -/

/-- **C58 is false for `fallback`**: an exactly full `linear_allocator` answers `allocate(0)` with its end
pointer, which it does not own; `deallocate` then passes that pointer to the fallback, here `free`. -/
theorem C58_false_fallback : (play (demoSys .direct) (fallback (linear 16) (mallocator (demoSys .direct))) 4096
    [.allocate 16, .allocate 0, .deallocate 0] (demoWorld 32)).isUB = true := by decide +kernel

/-- **C58 is false for `cascading`**: the same end pointer is owned by no instance, so the free is ignored and
the instance's counter stays off by one. -/
theorem C58_false_cascading : ((play (demoSys .direct) (cascading (demoSys .direct) (linear 16)) 4096
    [.allocate 16, .allocate 0, .deallocate 0] (demoWorld 16)).test fun c _ =>
      decide (c.live.length = 1 ∧ (List.map Node.cnt c.st) = [2])) = true := by decide +kernel

namespace AllocTy

/-- contains no `fallback` and no `cascading` -/
def noRouting : AllocTy → Bool
  | null | mallocator | linear _ | stack _ => true
  | freelist _ _ A => A.noRouting
  | fallback _ _ => false
  | segragator _ P F => P.noRouting && F.noRouting
  | cascading _ => false
  | overflow A | threaded A | shared A | reference A => A.noRouting

theorem fits_zero (plat : Plat) : ∀ (t : AllocTy), t.WF → t.noRouting = true → ∀ n, n + t.margin < W64 → t.fits plat n
  | null, _, _, n, h => trivial
  | mallocator, _, _, n, h => fun _ => by simp only [margin] at h; omega
  | linear S, _, _, n, h => by simp only [margin] at h; show n + 15 + S < W64; omega
  | stack S, _, _, n, h => by simp only [margin] at h; show n + 15 + S < W64; omega
  | freelist m M A, hw, hr, n, h => by
    simp only [margin] at h
    exact fun _ => fits_zero plat A hw.1 hr M (by omega)
  | segragator T P F, hw, hr, n, h => by
    simp only [margin] at h
    simp only [noRouting, Bool.and_eq_true] at hr
    refine ⟨fun _ => fits_zero plat P hw.1 hr.1 n (by omega), fun _ => fits_zero plat F hw.2 hr.2 n (by omega)⟩
  | overflow A, hw, hr, n, h => by
    simp only [margin] at h
    exact ⟨by omega, fits_zero plat A hw hr (n + 128) (by omega)⟩
  | threaded A, hw, hr, n, h => fits_zero plat A hw hr n h
  | shared A, hw, hr, n, h => fits_zero plat A hw.1 hr n h
  | reference A, hw, hr, n, h => fits_zero plat A hw hr n h

end AllocTy

/-- **C58, what does hold.** For compositions without `fallback` and `cascading`, histories may also contain
`allocate(0)` and frees of such blocks: there is no undefined behaviour.

Missing from the full statement: `fallback` and `cascading`, see the two theorems above. -/
theorem C58_empty_requests_safe_partial (sys : Sys) (t : AllocTy) (hwf : t.WF) (hr : t.noRouting = true) (b : Nat) (w : World)
    (hs : Storage w b t.size) (ops : List Op) (hops : Requests (fun n => n + t.margin < W64) ops) :
    (play sys (t.denote sys) b ops w).isUB = false := by
  have hf : Requests (t.fits sys.plat) ops := fun n hn => ⟨(hops n hn).1, t.fits_zero sys.plat hwf hr n (hops n hn).2⟩
  have := sound_history sys (t.sound sys hwf) b w (by rw [AllocTy.objSize_eq]; exact hs) ops hf
  cases h : play sys (t.denote sys) b ops w with
  | ok c w' => rfl
  | oom w' => rfl
  | ub => rw [h] at this; exact this.elim

/-! ### C59 -/

/-- **C59 is false**: the first `allocate` on `cascading<cascading<A>>` calls `max_size()` on the new inner
cascade, which has no instance yet, and dereferences a null pointer — whatever `A` with a `max_size` is, and
whatever the size requested, unless memory already ran out. -/
theorem C59_false (sys : Sys) (A : Allocator) (f : A.St → Option Nat) (hA : A.maxSize = some f) (b n : Nat) (w : World) (ops : List Op) :
    ∀ c w', play sys (cascading sys (cascading sys A)) b (.allocate n :: ops) w ≠ .ok c w' := by
  intro c w' h
  obtain ⟨s, w1, h1, h2⟩ := bind_ok h
  cases h1
  obtain ⟨c1, w2, h3, h4⟩ := bind_ok h2
  obtain ⟨r, w3, h5, h6⟩ := bind_ok h3
  have h5' : Cascading.alloc sys (cascading sys A) [] n w = .ok r w3 := h5
  obtain ⟨s', w4, h7, h8⟩ := bind_ok h5'
  obtain ⟨nd, w5, h9, h10⟩ := bind_ok h7
  cases h10
  obtain ⟨q, w6, h11, h12⟩ := bind_ok h9
  cases h12
  have hq : q.2 = [] := by
    unfold alignedNew at h11
    obtain ⟨p, w7, h13, h14⟩ := bind_ok h11
    by_cases hp : p = 0
    · simp only [hp, if_true] at h14
      unfold M.nullDeref at h14
      split at h14 <;> cases h14
    · simp only [hp, if_false] at h14
      obtain ⟨_, w8, h15, h16⟩ := bind_ok h14
      cases h16; cases h15; rfl
  obtain ⟨a, st⟩ := q
  have hq' : st = [] := hq
  subst hq'
  have hm : (cascading sys A).maxSize = some (fun s : List (Node A.St) => match s with | [] => none | nd :: _ => f nd.st) := by
    show Option.map _ A.maxSize = _
    rw [hA]; rfl
  simp only [hm] at h8
  cases h8

theorem C59_crashes : (play (demoSys .direct) (cascading (demoSys .direct) (cascading (demoSys .direct) (linear 64))) 4096
    [.allocate 16] (demoWorld 16)).isUB = true := by decide +kernel

/-- **C59, what does hold.** `cascading<cascading<A>>` works if `A` has no `max_size` (then the check is skipped):
no history has undefined behaviour.

Missing from the full statement: every `A` with `max_size`, see `C59_false`. -/
theorem C59_nested_without_max_size_partial (sys : Sys) (A : AllocTy) (hwf : (AllocTy.cascading A).WF) (hmax : A.hasMax = false)
    (b : Nat) (w : World) (hs : Storage w b 16) (ops : List Op) (hops : Sane (.cascading (.cascading A)) ops) :
    (play sys ((AllocTy.cascading (.cascading A)).denote sys) b ops w).isUB = false := by
  have hw : (AllocTy.cascading (.cascading A)).WF := ⟨hwf, rfl, by simp [AllocTy.safeMax, hmax], by show 16 + 32 < W64; decide⟩
  have := sound_history sys ((AllocTy.cascading (.cascading A)).sound sys hw) b w (by rw [AllocTy.objSize_eq]; exact hs) ops (hops.fits sys hw)
  cases h : play sys ((AllocTy.cascading (.cascading A)).denote sys) b ops w with
  | ok c w' => rfl
  | oom w' => rfl
  | ub => rw [h] at this; exact this.elim

/-! ### Non-vacuity -/

/-- an `A` with `owns`, without `max_size`: `fallback<linear, null>` -/
example : (AllocTy.cascading (.fallback (.linear 64) .null)).WF ∧ (AllocTy.fallback (.linear 64) .null).hasMax = false := by decide
example : (AllocTy.segragator 32 (.freelist 0 32 (.linear 256)) (.overflow .mallocator)).noRouting = true := by decide
/-- `construct` exists and is routed to one of two parts that count -/
example : ((play (demoSys .direct) (fallback (overflow (linear 512)) (overflow (linear 512))) 4096
    [.allocate 16, .construct 0 0] (demoWorld 2048)).test fun c w =>
      decide (c.st.1.constructs = 1 ∧ c.st.2.constructs = 0 ∧ w.log.length = 1)) = true := by decide +kernel

end KTL
