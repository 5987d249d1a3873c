import Verif.Base.Post
import Verif.Spec.History

/- Specification device: an allocator wrapped with a ledger of the blocks it has handed out. The wrapped
allocator refuses (undefined behaviour) to take back a block that it has not handed out with that very
size, or to be destroyed while blocks are out. Comparing an allocator composed of wrapped parts with the
original composition shows which part receives which call. -/
namespace KTL

/-- What an allocator has handed out (`held`), how many blocks it has handed out (`taken`) and taken back
(`returned`) so far. -/
structure Ledger where
  held : List (Nat × Nat) := []
  taken : Nat := 0
  returned : Nat := 0
  deriving DecidableEq, Repr

/-- record the outcome of `allocate(n) = p` -/
def Ledger.got (l : Ledger) (p n : Nat) : Ledger :=
  if p = 0 then l else { l with held := (p, n) :: l.held, taken := l.taken + 1 }

/-- record `deallocate(p, n)` -/
def Ledger.gave (l : Ledger) (p n : Nat) : Ledger :=
  { l with held := l.held.erase (p, n), returned := l.returned + 1 }

/-- `A` with a ledger and checks. -/
def strict (A : Allocator) : Allocator where
  St := A.St × Ledger
  objSize := A.objSize
  init b := do
    let s ← A.init b
    pure (s, {})
  alloc s n := do
    let r ← A.alloc s.1 n
    pure (r.1, (r.2, s.2.got r.1 n))
  dealloc s p n :=
    if (p, n) ∈ s.2.held then do
      let s' ← A.dealloc s.1 p n
      pure (s', s.2.gave p n)
    else M.ub
  owns := A.owns.map fun f s p => f s.1 p
  maxSize := A.maxSize.map fun f s => f s.1
  construct := A.construct.map fun c s p => do
    let a ← c s.1 p
    pure (a, s.2)
  destroy := A.destroy.map fun c s p => do
    let a ← c s.1 p
    pure (a, s.2)
  fini s := if s.2.held = [] then A.fini s.1 else M.ub

/-- The wrapped allocator satisfies the same contract. -/
def strict_sound {A : Allocator} {fA : Nat → Prop} (hA : Sound A fA) : Sound (strict A) fA where
  Inv b s L := fun h => (s.2.held.Perm L ∧ s.2.taken = s.2.held.length + s.2.returned) ∧ hA.Inv b s.1 L h
  objAlign := hA.objAlign
  perm := fun hp ⟨⟨h1, h2⟩, h3⟩ => ⟨⟨h1.trans hp, h2⟩, hA.perm hp h3⟩
  init_spec := by
    intro b h1 h2 h3
    exact Triple.bind (hA.init_spec b h1 h2 h3) (fun s => Triple.pure _ (fun h hh => ⟨⟨.refl _, rfl⟩, hh⟩))
  alloc_spec := by
    intro b s L n hf hn
    refine Triple.and (fun ⟨hp, ht⟩ => ?_)
    refine Triple.bind (hA.alloc_spec b s.1 L n hf hn) (fun r => Triple.pure _ (fun h hh => ?_))
    rcases hh with ⟨h1, h2⟩ | ⟨h1, h2⟩
    · refine .inl ⟨h1, ?_, h2⟩
      simp only [Ledger.got, h1, if_true]
      exact ⟨hp, ht⟩
    · refine .inr ⟨h1, ?_⟩
      rw [star_and]
      refine ⟨?_, h2⟩
      have := h1.1
      simp only [Ledger.got, this, if_false, List.length_cons]
      exact ⟨hp.cons _, by omega⟩
  dealloc_local := by
    intro b s p bs R k hk
    rw [star_and]
    refine apart_and (fun ⟨hp, ht⟩ => ?_)
    have hm : (p, bs.length) ∈ s.2.held := hp.mem_iff.2 (by simp)
    simp only [strict, hm, if_true]
    refine Triple.bind (hA.dealloc_local b s.1 p bs R k hk) (fun s' => Triple.pure _ (fun h hh => ?_))
    refine ⟨⟨?_, ?_⟩, hh⟩
    · have := hp.erase (p, bs.length)
      rw [List.erase_cons_head] at this
      exact this
    · simp only [Ledger.gave, List.length_erase_of_mem hm]
      have := List.length_pos_of_mem hm
      omega
  live_good := fun ⟨_, h⟩ hm => hA.live_good h hm
  live_max := by
    rintro f hf b s L h p n ⟨_, hi⟩ hm m hfm
    have hf1 : A.maxSize.map (fun f (s : A.St × Ledger) => f s.1) = some f := hf
    obtain ⟨f', hf', rfl⟩ := Option.map_eq_some_iff.1 hf1
    exact hA.live_max f' hf' hi hm m hfm
  owns_sound := by
    rintro f hf b s L h x ⟨_, hi⟩ hx ho
    have hf1 : A.owns.map (fun f (s : A.St × Ledger) p => f s.1 p) = some f := hf
    obtain ⟨f', hf', rfl⟩ := Option.map_eq_some_iff.1 hf1
    exact hA.owns_sound f' hf' hi hx ho
  owns_complete := by
    rintro f hf b s L h x ⟨_, hi⟩ hx
    have hf1 : A.owns.map (fun f (s : A.St × Ledger) p => f s.1 p) = some f := hf
    obtain ⟨f', hf', rfl⟩ := Option.map_eq_some_iff.1 hf1
    exact hA.owns_complete f' hf' hi hx
  construct_spec := by
    intro c hc b s L p
    have hc1 : A.construct.map (fun c (s : A.St × Ledger) p => do let a ← c s.1 p; pure (a, s.2)) = some c := hc
    obtain ⟨c', hc', rfl⟩ := Option.map_eq_some_iff.1 hc1
    refine Triple.and (fun hp => ?_)
    exact Triple.bind (hA.construct_spec c' hc' b s.1 L p) (fun a => Triple.pure _ (fun h hh => ⟨hp, hh⟩))
  destroy_spec := by
    intro c hc b s L p
    have hc1 : A.destroy.map (fun c (s : A.St × Ledger) p => do let a ← c s.1 p; pure (a, s.2)) = some c := hc
    obtain ⟨c', hc', rfl⟩ := Option.map_eq_some_iff.1 hc1
    refine Triple.and (fun hp => ?_)
    exact Triple.bind (hA.destroy_spec c' hc' b s.1 L p) (fun a => Triple.pure _ (fun h hh => ⟨hp, hh⟩))
  fini_spec := by
    intro b s
    refine Triple.and (fun ⟨hp, _⟩ => ?_)
    have : s.2.held = [] := List.perm_nil.1 hp
    simp only [strict, this, if_true]
    exact hA.fini_spec b s.1

/-! ### Comparing with the original -/

/-- `c` behaves like `d` up to `f`, unless `c` runs into a check. -/
def Below {α β : Type} (f : α → β) (c : M α) (d : M β) : Prop := ∀ w, c w = .ub ∨ (c >>= fun a => pure (f a)) w = d w

theorem Below.pure {α β : Type} (f : α → β) (a : α) (b : β) (h : f a = b) : Below f (Pure.pure a) (Pure.pure b) := by
  intro w; right; subst h; rfl

theorem Below.rfl' {α β : Type} {f : α → β} {c : M α} {d : M β} (h : (c >>= fun a => Pure.pure (f a)) = d) : Below f c d := by
  intro w; right; rw [h]

theorem Below.refl {α : Type} (c : M α) : Below id c c := by
  refine Below.rfl' ?_
  exact bind_pure c

theorem Below.ub {α β : Type} {f : α → β} {d : M β} : Below f M.ub d := fun _ => .inl rfl

theorem Below.bind {α β γ δ : Type} {f : α → β} {g : γ → δ} {c : M α} {d : M β} {k : α → M γ} {l : β → M δ}
    (h : Below f c d) (hk : ∀ a, Below g (k a) (l (f a))) : Below g (c >>= k) (d >>= l) := by
  intro w
  rcases h w with e | e
  · left; rw [M.bind_apply, e]
  · cases hc : c w with
    | ok a w1 =>
      rw [M.bind_apply, hc] at e
      have e' : d w = .ok (f a) w1 := e.symm
      rcases hk a w1 with e2 | e2
      · left; rw [M.bind_apply, hc]; exact e2
      · right
        rw [M.bind_apply, bind_of_ok hc, M.bind_apply (d) , e']
        rw [M.bind_apply] at e2
        exact e2
    | oom w1 =>
      rw [M.bind_apply, hc] at e
      have e' : d w = .oom w1 := e.symm
      right
      rw [M.bind_apply, M.bind_apply, M.bind_apply d, hc, e']
    | ub => left; rw [M.bind_apply, hc]

/-- `construct`/`destroy` -/
def BelowOpt {S T : Type} (f : S → T) (c : Option (S → Nat → M S)) (d : Option (T → Nat → M T)) : Prop :=
  match c, d with
  | some c, some d => ∀ s p, Below f (c s p) (d (f s) p)
  | none, none => True
  | _, _ => False

/-- The class `A` behaves like `B`, unless it runs into a check. -/
structure Refines (A B : Allocator) (f : A.St → B.St) : Prop where
  size : A.objSize = B.objSize
  init : ∀ b, Below f (A.init b) (B.init b)
  alloc : ∀ s n, Below (fun r => (r.1, f r.2)) (A.alloc s n) (B.alloc (f s) n)
  dealloc : ∀ s p n, Below f (A.dealloc s p n) (B.dealloc (f s) p n)
  owns : A.owns = B.owns.map fun g s p => g (f s) p
  maxSize : A.maxSize = B.maxSize.map fun g s => g (f s)
  construct : BelowOpt f A.construct B.construct
  destroy : BelowOpt f A.destroy B.destroy
  fini : ∀ s, Below id (A.fini s) (B.fini (f s))

theorem Refines.ownsD {A B : Allocator} {f : A.St → B.St} (h : Refines A B f) (s : A.St) (p : Nat) :
    A.ownsD s p = B.ownsD (f s) p := by
  unfold Allocator.ownsD
  rw [h.owns]
  cases B.owns <;> rfl

theorem Refines.refl (A : Allocator) : Refines A A id where
  size := rfl
  init b := Below.refl _
  alloc s n := Below.refl _
  dealloc s p n := Below.refl _
  owns := by cases A.owns <;> rfl
  maxSize := by cases A.maxSize <;> rfl
  construct := by
    cases h : A.construct with
    | none => exact trivial
    | some c => exact fun s p => Below.refl _
  destroy := by
    cases h : A.destroy with
    | none => exact trivial
    | some c => exact fun s p => Below.refl _
  fini s := Below.refl _

theorem belowOpt_map {S T : Type} (c : Option (S → Nat → M S)) :
    BelowOpt (Prod.fst : S × T → S) (c.map fun c s p => do let a ← c s.1 p; pure (a, s.2)) c := by
  cases c with
  | none => exact trivial
  | some c =>
    intro s p
    refine Below.rfl' ?_
    simp only [bind_assoc, pure_bind]
    exact bind_pure _

/-- The wrapped allocator behaves like the original. -/
theorem strict_refines (A : Allocator) : Refines (strict A) A Prod.fst where
  size := rfl
  init b := Below.rfl' (by simp only [strict, bind_assoc, pure_bind]; exact bind_pure _)
  alloc s n := Below.rfl' (by simp only [strict, bind_assoc, pure_bind]; exact bind_pure _)
  dealloc s p n := by
    simp only [strict]
    split
    · exact Below.rfl' (by simp only [bind_assoc, pure_bind]; exact bind_pure _)
    · exact Below.ub
  owns := rfl
  maxSize := rfl
  construct := belowOpt_map _
  destroy := belowOpt_map _
  fini s := by
    simp only [strict]
    split
    · exact Below.refl _
    · exact Below.ub

theorem refines_route2 {P P' F F' : Allocator} {f : P.St → P'.St} {g : F.St → F'.St} (hP : Refines P P' f) (_ : Refines F F' g)
    {cP cF dP dF} (h1 : BelowOpt f cP dP) (h2 : BelowOpt g cF dF) (ev : Nat → Ev) :
    BelowOpt (fun s => (f s.1, g s.2)) (route2 P F cP cF ev) (route2 P' F' dP dF ev) := by
  unfold route2
  cases cP with
  | none =>
    cases dP with
    | some _ => exact h1.elim
    | none =>
      cases cF with
      | none =>
        cases dF with
        | some _ => exact h2.elim
        | none => exact trivial
      | some c =>
        cases dF with
        | none => exact h2.elim
        | some d =>
          intro s p
          simp only [hP.ownsD]
          cases P'.ownsD (f s.1) p with
          | true =>
            refine Below.rfl' ?_
            simp only [bind_assoc, pure_bind]
          | false => exact Below.bind (h2 s.2 p) (fun a => Below.pure _ _ _ rfl)
  | some c =>
    cases dP with
    | none => exact h1.elim
    | some d =>
      cases cF with
      | none =>
        cases dF with
        | some _ => exact h2.elim
        | none =>
          intro s p
          simp only [hP.ownsD]
          cases P'.ownsD (f s.1) p with
          | true => exact Below.bind (h1 s.1 p) (fun a => Below.pure _ _ _ rfl)
          | false =>
            refine Below.rfl' ?_
            simp only [bind_assoc, pure_bind]
      | some c' =>
        cases dF with
        | none => exact h2.elim
        | some d' =>
          intro s p
          simp only [hP.ownsD]
          cases P'.ownsD (f s.1) p with
          | true => exact Below.bind (h1 s.1 p) (fun a => Below.pure _ _ _ rfl)
          | false => exact Below.bind (h2 s.2 p) (fun a => Below.pure _ _ _ rfl)

theorem refines_owns2 {P P' F F' : Allocator} {f : P.St → P'.St} {g : F.St → F'.St} (hP : Refines P P' f) (hF : Refines F F' g) :
    owns2 P F = (owns2 P' F').map fun k (s : P.St × F.St) p => k (f s.1, g s.2) p := by
  unfold owns2
  rw [hP.owns, hF.owns]
  cases P'.owns <;> cases F'.owns <;> rfl

theorem refines_maxSize2 {P P' F F' : Allocator} {f : P.St → P'.St} {g : F.St → F'.St} (hP : Refines P P' f) (hF : Refines F F' g) :
    maxSize2 P F = (maxSize2 P' F').map fun k (s : P.St × F.St) => k (f s.1, g s.2) := by
  unfold maxSize2
  rw [hP.maxSize, hF.maxSize]
  cases P'.maxSize <;> cases F'.maxSize <;> rfl

theorem fallback_refines {P P' F F' : Allocator} {f : P.St → P'.St} {g : F.St → F'.St} (hP : Refines P P' f) (hF : Refines F F' g) :
    Refines (fallback P F) (fallback P' F') (fun s => (f s.1, g s.2)) where
  size := by simp only [fallback, hP.size, hF.size]
  init b := by
    simp only [fallback, hP.size]
    exact Below.bind (hP.init _) (fun s => Below.bind (hF.init _) (fun s => Below.pure _ _ _ rfl))
  alloc s n := by
    refine Below.bind (hP.alloc s.1 n) (fun r => ?_)
    simp only
    split
    · exact Below.bind (hF.alloc s.2 n) (fun s => Below.pure _ _ _ rfl)
    · exact Below.pure _ _ _ rfl
  dealloc s p n := by
    simp only [fallback, hP.ownsD]
    split
    · exact Below.bind (hP.dealloc _ _ _) (fun s => Below.pure _ _ _ rfl)
    · exact Below.bind (hF.dealloc _ _ _) (fun s => Below.pure _ _ _ rfl)
  owns := refines_owns2 hP hF
  maxSize := refines_maxSize2 hP hF
  construct := refines_route2 hP hF hP.construct hF.construct _
  destroy := refines_route2 hP hF hP.destroy hF.destroy _
  fini s := Below.bind (hF.fini s.2) (fun _ => hP.fini s.1)

theorem segragator_refines (T : Nat) {P P' F F' : Allocator} {f : P.St → P'.St} {g : F.St → F'.St} (hP : Refines P P' f) (hF : Refines F F' g) :
    Refines (segragator T P F) (segragator T P' F') (fun s => (f s.1, g s.2)) where
  size := by simp only [segragator, hP.size, hF.size]
  init b := by
    simp only [segragator, hP.size]
    exact Below.bind (hP.init _) (fun s => Below.bind (hF.init _) (fun s => Below.pure _ _ _ rfl))
  alloc s n := by
    simp only [segragator]
    split
    · exact Below.bind (hP.alloc s.1 n) (fun s => Below.pure _ _ _ rfl)
    · exact Below.bind (hF.alloc s.2 n) (fun s => Below.pure _ _ _ rfl)
  dealloc s p n := by
    simp only [segragator]
    split
    · exact Below.bind (hP.dealloc _ _ _) (fun s => Below.pure _ _ _ rfl)
    · exact Below.bind (hF.dealloc _ _ _) (fun s => Below.pure _ _ _ rfl)
  owns := refines_owns2 hP hF
  maxSize := refines_maxSize2 hP hF
  construct := refines_route2 hP hF hP.construct hF.construct _
  destroy := refines_route2 hP hF hP.destroy hF.destroy _
  fini s := Below.bind (hF.fini s.2) (fun _ => hP.fini s.1)

open Lean.Order in
theorem freelist_release_below {A B : Allocator} {f : A.St → B.St} (h : Refines A B f) (Max : Nat) (s : A.St) (next : Nat) :
    Below f (Freelist.release A Max s next) (Freelist.release B Max (f s) next) := by
  suffices ∀ s next w, Freelist.release A Max s next w = .ub ∨
      (Freelist.release A Max s next >>= fun a => pure (f a)) w = Freelist.release B Max (f s) next w from this s next
  refine Freelist.release.fixpoint_induct A Max (fun r => ∀ s next w, r s next w = .ub ∨
    (r s next >>= fun a => pure (f a)) w = Freelist.release B Max (f s) next w) ?_ ?_
  · refine admissible_pi_apply (fun s (r : Nat → M A.St) => ∀ next w, r next w = .ub ∨
      (r next >>= fun a => pure (f a)) w = Freelist.release B Max (f s) next w) (fun s => ?_)
    refine admissible_pi_apply (fun next (r : M A.St) => ∀ w, r w = .ub ∨
      (r >>= fun a => pure (f a)) w = Freelist.release B Max (f s) next w) (fun next => ?_)
    have key := admissible_pi_apply (fun w (r : Res A.St) => r = .ub ∨
      M.bind' (fun _ => r) (fun a => pure (f a)) w = Freelist.release B Max (f s) next w)
      (fun w => admissible_flatOrder (b := Res.ub) _ (.inl rfl))
    exact key
  · intro r ih s next
    rw [Freelist.release]
    show Below f (if next ≠ 0 then do
      let nx ← M.readPtr next
      let s' ← A.dealloc s next Max
      r s' nx
    else pure s) _
    by_cases hn : next = 0
    · simp only [hn, ne_eq, not_true, if_false]; exact Below.pure _ _ _ rfl
    · simp only [hn, ne_eq, not_false_eq_true, if_true]
      exact Below.bind (Below.refl _) (fun (nx : Nat) => Below.bind (h.dealloc s next Max) (fun s' => ih s' nx))

theorem belowOpt_free {S T : Type} {f : S → T} {c : Option (S → Nat → M S)} {d : Option (T → Nat → M T)} (h : BelowOpt f c d) :
    BelowOpt (fun s : Freelist.St S => (⟨f s.a, s.free⟩ : Freelist.St T))
      (c.map fun c s p => do let a ← c s.a p; pure ⟨a, s.free⟩) (d.map fun c s p => do let a ← c s.a p; pure ⟨a, s.free⟩) := by
  cases c with
  | none => cases d with
    | none => exact trivial
    | some d => exact h.elim
  | some c => cases d with
    | none => exact h.elim
    | some d => exact fun s p => Below.bind (h s.a p) (fun a => Below.pure _ _ _ rfl)

theorem freelist_refines (Min Max : Nat) {A B : Allocator} {f : A.St → B.St} (h : Refines A B f) :
    Refines (freelist Min Max A) (freelist Min Max B) (fun s => ⟨f s.a, s.free⟩) where
  size := by simp only [freelist, h.size]
  init b := Below.bind (h.init b) (fun s => Below.pure _ _ _ rfl)
  alloc s n := by
    simp only [freelist]
    split
    · split
      · exact Below.bind (Below.refl _) (fun nx => Below.pure _ _ _ rfl)
      · exact Below.bind (h.alloc _ _) (fun r => Below.pure _ _ _ rfl)
    · exact Below.pure _ _ _ rfl
  dealloc s p n := by
    simp only [freelist]
    split
    · exact Below.bind (Below.refl _) (fun nx => Below.pure _ _ _ rfl)
    · exact Below.pure _ _ _ rfl
  owns := by
    simp only [freelist, h.owns]
    cases B.owns <;> rfl
  maxSize := by
    simp only [freelist, h.maxSize]
    cases B.maxSize <;> rfl
  construct := belowOpt_free h.construct
  destroy := belowOpt_free h.destroy
  fini s := Below.bind (freelist_release_below h Max s.a s.free) (fun a => h.fini a)

namespace Cascading

variable {A B : Allocator} {f : A.St → B.St}

/-- apply a map to the allocator of a node -/
def Node.map {α β : Type} (f : α → β) (nd : Node α) : Node β := ⟨nd.addr, f nd.st, nd.cnt⟩

theorem newNode_below (sys : Sys) (h : Refines A B f) : Below (Node.map f) (newNode sys A) (newNode sys B) := by
  unfold newNode alignedNew nodeSize
  rw [h.size]
  refine Below.bind (f := fun r : Nat × A.St => (r.1, f r.2)) ?_ (fun r => Below.pure _ _ _ rfl)
  refine Below.bind (Below.refl _) (fun p => ?_)
  show Below _ _ _
  simp only [id]
  split
  · intro w; simp only [M.nullDeref, M.bind_apply]; by_cases hf : w.failed <;> simp [hf]
  · exact Below.bind (h.init p) (fun s => Below.pure _ _ _ rfl)

theorem allocFront_below (sys : Sys) (h : Refines A B f) (nd : Node A.St) (rest : List (Node A.St)) (n : Nat) :
    Below (fun r : Nat × List (Node A.St) => (r.1, r.2.map (Node.map f))) (allocFront sys A nd rest n)
      (allocFront sys B (nd.map f) (rest.map (Node.map f)) n) := by
  unfold allocFront
  refine Below.bind (h.alloc nd.st n) (fun r => ?_)
  simp only
  split
  · refine Below.bind (newNode_below sys h) (fun nd2 => Below.bind (h.alloc nd2.st n) (fun q => ?_))
    exact Below.pure _ _ _ rfl
  · exact Below.pure _ _ _ rfl

theorem alloc_below (sys : Sys) (h : Refines A B f) (s : List (Node A.St)) (n : Nat) :
    Below (fun r : Nat × List (Node A.St) => (r.1, r.2.map (Node.map f))) (alloc sys A s n) (alloc sys B (s.map (Node.map f)) n) := by
  unfold alloc
  refine Below.bind (f := List.map (Node.map f)) ?_ (fun s' => ?_)
  · cases s with
    | nil => exact Below.bind (newNode_below sys h) (fun nd => Below.pure _ _ _ rfl)
    | cons nd s => exact Below.pure _ _ _ rfl
  · cases s' with
    | nil => exact Below.ub
    | cons nd rest =>
      simp only [List.map_cons, h.maxSize]
      cases hm : B.maxSize with
      | none => exact allocFront_below sys h nd rest n
      | some g =>
        simp only [Option.map_some, Node.map]
        cases g (f nd.st) with
        | none => exact Below.ub
        | some m =>
          simp only
          split
          · exact Below.pure _ _ _ rfl
          · exact allocFront_below sys h nd rest n

theorem dealloc_below (sys : Sys) (h : Refines A B f) (p n : Nat) (prev : Bool) (s : List (Node A.St)) :
    Below (List.map (Node.map f)) (dealloc sys A p n prev s) (dealloc sys B p n prev (s.map (Node.map f))) := by
  induction s generalizing prev with
  | nil => exact Below.pure _ _ _ rfl
  | cons nd rest ih =>
    simp only [List.map_cons, dealloc, h.ownsD, Node.map]
    split
    · refine Below.bind (h.dealloc nd.st p n) (fun st => ?_)
      split
      · refine Below.bind (f := id) ?_ (fun _ => Below.pure _ _ _ rfl)
        exact Below.bind (h.fini st) (fun _ => Below.refl _)
      · exact Below.pure _ _ _ rfl
    · exact Below.bind (ih true) (fun rest' => Below.pure _ _ _ rfl)

theorem routeGo_below (h : Refines A B f) {c d} (hc : ∀ s p, Below f (c s p) (d (f s) p)) (ev : Nat → Ev) (p : Nat) (s : List (Node A.St)) :
    Below (List.map (Node.map f)) (routeGo A c ev p s) (routeGo B d ev p (s.map (Node.map f))) := by
  induction s with
  | nil => exact Below.bind (Below.refl _) (fun _ => Below.pure _ _ _ rfl)
  | cons nd rest ih =>
    simp only [List.map_cons, routeGo, h.ownsD, Node.map]
    split
    · exact Below.bind (hc nd.st p) (fun st => Below.pure _ _ _ rfl)
    · exact Below.bind ih (fun rest' => Below.pure _ _ _ rfl)

theorem release_below (sys : Sys) (h : Refines A B f) (s : List (Node A.St)) :
    Below id (release sys A s) (release sys B (s.map (Node.map f))) := by
  induction s with
  | nil => exact Below.refl _
  | cons nd rest ih =>
    simp only [List.map_cons, release, Node.map]
    refine Below.bind (f := id) ?_ (fun _ => ih)
    exact Below.bind (h.fini nd.st) (fun _ => Below.refl _)

end Cascading

open Cascading in
theorem cascading_refines (sys : Sys) {A B : Allocator} {f : A.St → B.St} (h : Refines A B f) :
    Refines (cascading sys A) (cascading sys B) (List.map (Node.map f)) where
  size := rfl
  init b := Below.pure _ _ _ rfl
  alloc s n := alloc_below sys h s n
  dealloc s p n := dealloc_below sys h p n false s
  owns := by
    simp only [cascading, Option.map_some, List.any_map]
    congr 1
    funext s p
    congr 1
    funext nd
    exact h.ownsD nd.st p
  maxSize := by
    simp only [cascading, h.maxSize]
    cases B.maxSize with
    | none => rfl
    | some g =>
      simp only [Option.map_some]
      congr 1
      funext s
      cases s <;> rfl
  construct := by
    have := h.construct
    simp only [cascading]
    revert this
    cases A.construct <;> cases B.construct <;> intro h' <;> first | exact trivial | exact h'.elim | exact fun s p => routeGo_below h h' _ p s
  destroy := by
    have := h.destroy
    simp only [cascading]
    revert this
    cases A.destroy <;> cases B.destroy <;> intro h' <;> first | exact trivial | exact h'.elim | exact fun s p => routeGo_below h h' _ p s
  fini s := release_below sys h s

/-! ### Histories -/

/-- apply a map to the allocator of a client -/
def Client.map {A B : Allocator} (f : A.St → B.St) (c : Client A) : Client B :=
  { st := f c.st, live := c.live, foreign := c.foreign, refused := c.refused, built := c.built }

theorem callOpt_below {A B : Allocator} {f : A.St → B.St} {c : Option (A.St → Nat → M A.St)} {d : Option (B.St → Nat → M B.St)}
    (h : BelowOpt f c d) (s : A.St) (p : Nat) : Below f (callOpt c s p) (callOpt d (f s) p) := by
  cases c <;> cases d <;> first | exact h.elim | exact Below.pure _ _ _ rfl | exact h s p

theorem step_below (sys : Sys) {A B : Allocator} {f : A.St → B.St} (h : Refines A B f) (c : Client A) (o : Op) :
    Below (Client.map f) (c.step sys o) ((c.map f).step sys o) := by
  cases o with
  | allocate n =>
    refine Below.bind (h.alloc c.st n) (fun r => ?_)
    simp only
    split
    · exact Below.pure _ _ _ rfl
    · exact Below.bind (Below.refl _) (fun bs => Below.pure _ _ _ rfl)
  | deallocate i =>
    simp only [Client.step, Client.map]
    split
    · exact Below.pure _ _ _ rfl
    · exact Below.bind (h.dealloc _ _ _) (fun s => Below.pure _ _ _ rfl)
  | write i off v =>
    simp only [Client.step, Client.map]
    split
    · exact Below.pure _ _ _ rfl
    · split
      · exact Below.bind (Below.refl _) (fun bs => Below.pure _ _ _ rfl)
      · exact Below.pure _ _ _ rfl
  | construct i off =>
    simp only [Client.step, Client.map]
    split
    · exact Below.pure _ _ _ rfl
    · exact Below.bind (callOpt_below h.construct _ _) (fun s => Below.pure _ _ _ rfl)
  | destroy i off =>
    simp only [Client.step, Client.map]
    split
    · exact Below.pure _ _ _ rfl
    · exact Below.bind (callOpt_below h.destroy _ _) (fun s => Below.pure _ _ _ rfl)
  | foreign n =>
    refine Below.bind (Below.refl _) (fun p => ?_)
    simp only [id]
    split
    · exact Below.pure _ _ _ rfl
    · exact Below.bind (Below.refl _) (fun bs => Below.pure _ _ _ rfl)

theorem run_below (sys : Sys) {A B : Allocator} {f : A.St → B.St} (h : Refines A B f) (c : Client A) (ops : List Op) :
    Below (Client.map f) (c.run sys ops) ((c.map f).run sys ops) := by
  induction ops generalizing c with
  | nil => exact Below.pure _ _ _ rfl
  | cons o os ih => exact Below.bind (step_below sys h c o) (fun c' => ih c')

theorem play_below (sys : Sys) {A B : Allocator} {f : A.St → B.St} (h : Refines A B f) (b : Nat) (ops : List Op) :
    Below (Client.map f) (play sys A b ops) (play sys B b ops) :=
  Below.bind (h.init b) (fun s => run_below sys h _ ops)

end KTL
