import Verif.Props.Mallocs
import Verif.Props.GiveBackThreads
import Verif.Props.Enough

/- C106 for several threads: how often `malloc` is called. -/
namespace KTL

/-! ### Specification -/

/-- No way through the call contains more than `k` calls of `malloc`, whatever is read from memory. -/
def Body.MCalls {g : Bool} {α : Type} : Body g α → Nat → Prop
  | .ret _, _ => True
  | .ub, _ => True
  | .null _, _ => True
  | .load _ f, k => ∀ v, (f v).MCalls k
  | .store _ _ x, k => x.MCalls k
  | .malloc _ _ f, k => ∃ j, k = j + 1 ∧ ∀ p, (f p).MCalls j
  | .free _ _ x, k => x.MCalls k
  | .print _ _ x, k => x.MCalls k

/-! ### Calls -/

namespace Body
variable {g : Bool} {α β : Type} {k l : Nat}

theorem MCalls.mono {x : Body g α} {k k' : Nat} (h : x.MCalls k) (hk : k ≤ k') : x.MCalls k' := by
  induction x generalizing k k' with
  | ret => trivial
  | ub => trivial
  | null => trivial
  | load p f ih => exact fun v => ih v (h v) hk
  | store p v x ih => exact ih h hk
  | malloc hg n f ih =>
    obtain ⟨j, rfl, h⟩ := h
    exact ⟨k' - 1, by omega, fun v => ih v (h v) (by omega)⟩
  | free hg p x ih => exact ih h hk
  | print hg m x ih => exact ih h hk

theorem MCalls.bind {x : Body g α} {f : α → Body g β} {k l : Nat} (h : x.MCalls k) (hf : ∀ a, (f a).MCalls l) : (x >>= f).MCalls (k + l) := by
  show (x.bind f).MCalls _
  induction x generalizing k with
  | ret a => exact (hf a).mono (by omega)
  | ub => trivial
  | null => trivial
  | load p c ih => exact fun v => ih v (h v)
  | store p v x ih => exact ih h
  | malloc hg n c ih =>
    obtain ⟨j, rfl, h⟩ := h
    exact ⟨j + l, by omega, fun v => ih v (h v)⟩
  | free hg p x ih => exact ih h
  | print hg m x ih => exact ih h

/-- for the last part of a call, which does not call `malloc` -/
theorem MCalls.map {x : Body g α} {f : α → Body g β} {k : Nat} (h : x.MCalls k) (hf : ∀ a, (f a).MCalls 0) : (x >>= f).MCalls k := h.bind hf

theorem MCalls.ite {c : Prop} [Decidable c] {x y : Body g α} {k : Nat} (h1 : x.MCalls k) (h2 : y.MCalls k) : (if c then x else y).MCalls k := by
  split
  · exact h1
  · exact h2

theorem mcalls_readBytes (p n : Nat) : (readBytes p n : Body g _).MCalls k := by
  induction n generalizing p with
  | zero => trivial
  | succ n ih => exact fun v => (ih (p + 1)).map fun _ => trivial

theorem mcalls_writeBytes (p : Nat) (xs : List UInt8) : (writeBytes p xs : Body g _).MCalls k := by
  induction xs generalizing p with
  | nil => trivial
  | cons x xs ih => exact ih _

theorem mcalls_readPtr (p : Nat) : (readPtr p : Body g _).MCalls k := (mcalls_readBytes p 8).map fun _ => trivial

theorem mcalls_alignedMalloc (plat : Plat) (n : Nat) : (alignedMalloc plat n).MCalls 1 := by
  cases plat with
  | direct => exact ⟨0, rfl, fun _ => trivial⟩
  | manual => exact ⟨0, rfl, fun p => MCalls.ite (MCalls.map (mcalls_writeBytes _ _) fun _ => trivial) trivial⟩

theorem mcalls_alignedNew (plat : Plat) (n : Nat) {c : Nat → Body false α} {k : Nat} (h : ∀ p, (c p).MCalls k) :
    (alignedNew plat n c).MCalls (1 + k) :=
  (mcalls_alignedMalloc plat n).bind fun p => MCalls.ite trivial ((h p).map fun _ => trivial)

/-- What a step takes from the number. -/
theorem MCalls.step {sys : Sys} {x x' : Body g α} {w w' : World} (h : x.MCalls k) (hs : x.step sys w = .ok x' w') :
    ∃ j, x'.MCalls j ∧ w'.tick + j = w.tick + k ∧ j ≤ k := by
  cases x with
  | ret a => cases hs; exact ⟨k, trivial, rfl, Nat.le_refl _⟩
  | ub => cases hs
  | null _ =>
    simp only [Body.step, M.nullDeref] at hs
    split at hs <;> cases hs
  | load p f =>
    obtain ⟨v, w1, h1, h2⟩ := bind_ok (show (M.load p >>= fun v => Pure.pure (f v) : M (Body g α)) w = .ok x' w' from hs)
    cases h2
    have := Frugal.load p w
    rw [h1] at this
    have e : w'.tick = w.tick := this
    exact ⟨k, h v, by rw [e], Nat.le_refl _⟩
  | store p v x =>
    obtain ⟨_, w1, h1, h2⟩ := bind_ok (show (M.store p v >>= fun _ => Pure.pure x : M (Body g α)) w = .ok x' w' from hs)
    cases h2
    have := Frugal.store p v w
    rw [h1] at this
    have e : w'.tick = w.tick := this
    exact ⟨k, h, by rw [e], Nat.le_refl _⟩
  | malloc hg n f =>
    obtain ⟨j, rfl, h⟩ := h
    obtain ⟨p, w1, h1, h2⟩ := bind_ok (show (cMalloc sys n >>= fun p => Pure.pure (f p) : M (Body g α)) w = .ok x' w' from hs)
    cases h2
    have e : w'.tick = w.tick + 1 := by
      unfold cMalloc at h1
      cases hm : sys.malloc w.tick w.heap n with
      | none => rw [hm] at h1; cases h1; rfl
      | some y => rw [hm] at h1; cases h1; rfl
    exact ⟨j, h p, by rw [e]; omega, by omega⟩
  | free hg p x =>
    obtain ⟨_, w1, h1, h2⟩ := bind_ok (show (cFree p >>= fun _ => Pure.pure x : M (Body g α)) w = .ok x' w' from hs)
    cases h2
    have := Frugal.cFree p w
    rw [h1] at this
    have e : w'.tick = w.tick := this
    exact ⟨k, h, by rw [e], Nat.le_refl _⟩
  | print hg m x =>
    obtain ⟨_, w1, h1, h2⟩ := bind_ok (show (M.print m >>= fun _ => Pure.pure x : M (Body g α)) w = .ok x' w' from hs)
    cases h2
    have := Frugal.print m w
    rw [h1] at this
    have e : w'.tick = w.tick := this
    exact ⟨k, h, by rw [e], Nat.le_refl _⟩

/-- A step that ends for want of memory is not a call of `malloc`. -/
theorem step_oom {sys : Sys} {x : Body g α} {w w' : World} (hs : x.step sys w = .oom w') : w' = w := by
  cases x with
  | ret a => cases hs
  | ub => cases hs
  | null _ =>
    simp only [Body.step, M.nullDeref] at hs
    split at hs <;> cases hs
    rfl
  | load p f =>
    have := Frugal.bind (Frugal.load p) (fun v => Frugal.pure (f v)) w
    rw [show (M.load p >>= fun v => Pure.pure (f v) : M (Body g α)) w = .oom w' from hs] at this
    exact this.elim
  | store p v x =>
    have := Frugal.bind (Frugal.store p v) (fun _ => Frugal.pure x) w
    rw [show (M.store p v >>= fun _ => Pure.pure x : M (Body g α)) w = .oom w' from hs] at this
    exact this.elim
  | malloc hg n f =>
    have h : (cMalloc sys n >>= fun p => Pure.pure (f p) : M (Body g α)) w = .oom w' := hs
    rw [M.bind_apply] at h
    unfold cMalloc at h
    cases hm : sys.malloc w.tick w.heap n with
    | none => rw [hm] at h; cases h
    | some y => rw [hm] at h; cases h
  | free hg p x =>
    have := Frugal.bind (Frugal.cFree p) (fun _ => Frugal.pure x) w
    rw [show (cFree p >>= fun _ => Pure.pure x : M (Body g α)) w = .oom w' from hs] at this
    exact this.elim
  | print hg m x =>
    have := Frugal.bind (Frugal.print m) (fun _ => Frugal.pure x) w
    rw [show (M.print m >>= fun _ => Pure.pure x : M (Body g α)) w = .oom w' from hs] at this
    exact this.elim

theorem MCalls.seq {sys : Sys} {x : Body g α} (h : x.MCalls k) : Mallocs k (x.seq sys) := by
  induction x generalizing k with
  | ret a => exact Mallocs.pure _
  | ub => exact Mallocs.ub
  | null _ => exact Mallocs.nullDeref
  | load p f ih => exact Mallocs.bind0 (Frugal.load p).mallocs fun v => ih v (h v)
  | store p v x ih => exact Mallocs.bind0 (Frugal.store p v).mallocs fun _ => ih h
  | malloc hg n f ih =>
    obtain ⟨j, rfl, h⟩ := h
    exact (Mallocs.bind (Mallocs.cMalloc sys n) fun p => ih p (h p)).mono (by omega)
  | free hg p x ih => exact Mallocs.bind0 (Frugal.cFree p).mallocs fun _ => ih h
  | print hg m x ih => exact Mallocs.bind0 (Frugal.print m).mallocs fun _ => ih h

end Body

namespace Cascading

theorem mcalls_newNodeB (plat : Plat) (X : BAlloc) {k : Nat} (h : ∀ p, (X.init p).MCalls k) : (newNodeB plat X).MCalls (1 + k) :=
  (Body.mcalls_alignedNew plat _ h).map fun _ => trivial

theorem mcalls_allocFrontB (plat : Plat) (X : BAlloc) {k l : Nat} (h : ∀ p, (X.init p).MCalls k) (ha : ∀ s n, (X.alloc s n).MCalls l)
    (nd : Node X.S) (rest : List (Node X.S)) (n : Nat) : (allocFrontB plat X nd rest n).MCalls (l + (1 + k + l)) :=
  (ha _ _).bind fun _ => Body.MCalls.ite ((mcalls_newNodeB plat X h).bind fun _ => (ha _ _).map fun _ => trivial) trivial

theorem mcalls_allocB (plat : Plat) (X : BAlloc) {k l : Nat} (h : ∀ p, (X.init p).MCalls k) (ha : ∀ s n, (X.alloc s n).MCalls l)
    (s : List (Node X.S)) (n : Nat) : (allocB plat X s n).MCalls (1 + k + (l + (1 + k + l))) := by
  have he : (ensureB plat X s).MCalls (1 + k) := by
    cases s with
    | nil => exact (mcalls_newNodeB plat X h).map fun _ => trivial
    | cons => trivial
  refine he.bind fun s' => ?_
  cases s' with
  | nil => trivial
  | cons nd rest =>
    simp only
    split
    · exact mcalls_allocFrontB plat X h ha nd rest n
    · split
      · trivial
      · exact Body.MCalls.ite trivial (mcalls_allocFrontB plat X h ha nd rest n)

end Cascading

namespace AllocTy

theorem mcalls_init (plat : Plat) (t : AllocTy) (b : Nat) : ((t.denoteB plat).init b).MCalls t.atStart := by
  induction t generalizing b with
  | null => trivial
  | mallocator => trivial
  | linear _ => trivial
  | stack _ => trivial
  | freelist _ _ A ih => exact (ih b).map fun _ => trivial
  | fallback P F ihP ihF => exact (ihP b).bind fun _ => (ihF _).map fun _ => trivial
  | segragator _ P F ihP ihF => exact (ihP b).bind fun _ => (ihF _).map fun _ => trivial
  | cascading A ih => trivial
  | overflow A ih => exact (ih b).map fun _ => trivial
  | threaded A ih => exact ih b
  | shared A ih => exact Body.mcalls_alignedNew plat _ fun p => ih p
  | reference A ih => exact ih b

theorem mcalls_alloc (plat : Plat) (t : AllocTy) (s : (t.denoteB plat).S) (n : Nat) : ((t.denoteB plat).alloc s n).MCalls t.perRequest := by
  induction t generalizing n with
  | null => trivial
  | mallocator => exact (Body.mcalls_alignedMalloc plat n).map fun _ => trivial
  | linear _ => trivial
  | stack _ => trivial
  | freelist m M A ih =>
    exact Body.MCalls.ite (Body.MCalls.ite ((Body.mcalls_readPtr _).map fun _ => trivial) ((ih _ _).map fun _ => trivial)) trivial
  | fallback P F ihP ihF =>
    exact (ihP _ _).bind fun _ => Body.MCalls.ite ((ihF _ _).map fun _ => trivial) trivial
  | segragator _ P F ihP ihF =>
    exact Body.MCalls.ite (((ihP _ _).mono (Nat.le_max_left ..)).map fun _ => trivial) (((ihF _ _).mono (Nat.le_max_right ..)).map fun _ => trivial)
  | cascading A ih =>
    refine (Cascading.mcalls_allocB plat (A.denoteB plat) (mcalls_init plat A) (fun s n => ih s n) s n).mono ?_
    show _ ≤ 2 * (1 + A.atStart + A.perRequest)
    omega
  | overflow A ih =>
    refine (ih _ _).map fun _ => Body.MCalls.ite trivial ?_
    exact (Body.mcalls_writeBytes _ (List.replicate 64 Overflow.pattern)).bind (k := 0) (l := 0) fun _ =>
      (Body.mcalls_writeBytes _ (List.replicate 64 Overflow.pattern)).map fun _ => trivial
  | threaded A ih => exact ih _ _
  | shared A ih => exact (ih _ _).map fun _ => trivial
  | reference A ih => exact ih _ _

end AllocTy

/-! ### Threads -/

namespace Gang
variable {X : BAlloc} {α : Type} {k : Nat}

/-- What is left of the calls of thread `i` makes at most `f i` calls of `malloc`. -/
def May (k : Nat) (T : Gang X α) (f : Nat → Nat) : Prop := ∀ i, match T.holds i with
  | none => ∃ m, (T.threads i).Asks m ∧ m * k ≤ f i
  | some (.taking x c) => ∃ j m, x.MCalls j ∧ (∀ p, (c p).Asks m) ∧ j + m * k ≤ f i
  | some (.giving _ c) => ∃ m, c.Asks m ∧ m * k ≤ f i

/-- one number changed -/
def upd (f : Nat → Nat) (i x : Nat) : Nat → Nat := fun j => if j = i then x else f j

theorem upd_self (f : Nat → Nat) (i : Nat) : upd f i (f i) = f := by
  funext j; unfold upd; split
  · rename_i h; rw [h]
  · rfl

theorem bind_oom {α β : Type} {c : M α} {f : α → M β} {w w' : World} (h : (c >>= f) w = .oom w') :
    c w = .oom w' ∨ ∃ a w1, c w = .ok a w1 ∧ f a w1 = .oom w' := by
  rw [M.bind_apply] at h
  cases hc : c w with
  | ok a w1 => rw [hc] at h; exact .inr ⟨a, w1, rfl, h⟩
  | oom w1 => rw [hc] at h; cases h; exact .inl rfl
  | ub => rw [hc] at h; cases h

theorem May.put {T : Gang X α} {f : Nat → Nat} (hT : T.May k f) {i : Nat} {p : Prog α} {m : Nat} (hp : p.Asks m) (hm : m * k ≤ f i)
    (hi : T.holds i = none) : (T.put i p).May k f := by
  intro j
  have hj := hT j
  have e : (T.put i p).holds j = T.holds j := rfl
  rw [e]
  by_cases hij : j = i
  · subst hij
    rw [hi]
    exact ⟨m, by show Prog.Asks (if j = j then p else T.threads j) m; rw [if_pos rfl]; exact hp, hm⟩
  · cases hc : T.holds j with
    | none =>
      rw [hc] at hj
      show ∃ m, Prog.Asks (if j = i then p else T.threads j) m ∧ _
      rw [if_neg hij]; exact hj
    | some c =>
      rw [hc] at hj
      cases c with
      | taking x k => exact hj
      | giving x k => exact hj

/-- thread `i` enters a call, or goes on in it -/
theorem May.enter {T T' : Gang X α} {f : Nat → Nat} {i y : Nat} {c : Visit X α} (hth : T'.threads = T.threads) (hin : T'.inside = some (i, c))
    (other : ∀ j, j ≠ i → ∃ m, (T.threads j).Asks m ∧ m * k ≤ f j)
    (hc : match c with
      | .taking x c => ∃ j m, x.MCalls j ∧ (∀ p, (c p).Asks m) ∧ j + m * k ≤ y
      | .giving _ c => ∃ m, c.Asks m ∧ m * k ≤ y) : T'.May k (upd f i y) := by
  intro j
  rw [holds_some hin]
  by_cases hj : i = j
  · subst hj
    rw [if_pos rfl, show upd f i y i = y from if_pos rfl]
    cases c with
    | taking x c => exact hc
    | giving x c => exact hc
  · rw [if_neg hj, show upd f i y j = f j from if_neg (Ne.symm hj), hth]
    exact other j (Ne.symm hj)

theorem May.step (ha : ∀ s n, (X.alloc s n).MCalls k) {T T' : Gang X α} {f : Nat → Nat} (hT : T.May k f) {sys : Sys} {i : Nat} {w w' : World}
    (h : T.step sys i w = .ok T' w') : ∃ y, T'.May k (upd f i y) ∧ w'.tick + y = w.tick + f i ∧ y ≤ f i := by
  have hi := hT i
  have same : T'.May k f → w'.tick = w.tick → ∃ y, T'.May k (upd f i y) ∧ w'.tick + y = w.tick + f i ∧ y ≤ f i := fun h1 h2 =>
    ⟨f i, by rw [upd_self]; exact h1, by rw [h2], Nat.le_refl _⟩
  cases hh : T.holds i with
  | some c =>
    have hin := Gang.holds_self hh
    rw [hh] at hi
    have other : ∀ j, j ≠ i → ∃ m, (T.threads j).Asks m ∧ m * k ≤ f j := fun j hj => by
      have := hT j
      rw [Gang.holds_other hin hj] at this
      exact this
    cases ho : c.over with
    | some r =>
      rw [Gang.step_over hin ho] at h
      cases h
      refine same ?_ rfl
      intro j
      show ∃ m, (if j = i then r.2 else T.threads j : Prog α).Asks m ∧ m * k ≤ f j
      by_cases hj : j = i
      · subst hj
        rw [if_pos rfl]
        cases c with
        | taking x c =>
          obtain ⟨j', m, _, h2, h3⟩ := hi
          cases x <;> cases ho
          exact ⟨m, h2 _, by omega⟩
        | giving x c =>
          cases x <;> cases ho
          exact hi
      · rw [if_neg hj]; exact other j hj
    | none =>
      rw [Gang.step_inside hin ho] at h
      obtain ⟨c', w1, h1, h2⟩ := bind_ok h
      cases h2
      cases c with
      | taking x c =>
        obtain ⟨j', m, q1, q2, q3⟩ := hi
        obtain ⟨x', w2, h3, h4⟩ := bind_ok (show (x.step sys >>= fun x' => Pure.pure (Visit.taking x' c) : M (Visit X α)) w = .ok c' w' from h1)
        cases h4
        obtain ⟨j2, h4, h5, h6⟩ := q1.step h3
        exact ⟨j2 + (f i - j'), May.enter (T := T) (c := .taking x' c) rfl rfl other ⟨j2, m, h4, q2, by omega⟩, by omega, by omega⟩
      | giving x c =>
        obtain ⟨x', w2, h3, h4⟩ := bind_ok (show (x.step sys >>= fun x' => Pure.pure (Visit.giving x' c) : M (Visit X α)) w = .ok c' w' from h1)
        cases h4
        have e := Frugal.bodyStep sys x w
        rw [h3] at e
        exact ⟨f i, May.enter (T := T) (c := .giving x' c) rfl rfl other hi, by rw [show w'.tick = w.tick from e], Nat.le_refl _⟩
  | none =>
    rw [hh] at hi
    obtain ⟨m, hi, hm⟩ := hi
    unfold Gang.step at h
    rw [hh] at h
    dsimp only at h
    cases hp : T.threads i with
    | ret a => rw [hp] at h; cases h; exact same hT rfl
    | stop => rw [hp] at h; cases h
    | ub => rw [hp] at h; cases h
    | load p c =>
      rw [hp] at h hi
      obtain ⟨v, w1, h1, h2⟩ := bind_ok h
      cases h2
      have e := Frugal.load p w
      rw [h1] at e
      exact same (hT.put (hi v) hm hh) e
    | store p v c =>
      rw [hp] at h hi
      obtain ⟨_, w1, h1, h2⟩ := bind_ok h
      cases h2
      have e := Frugal.store p v w
      rw [h1] at e
      exact same (hT.put hi hm hh) e
    | alloc n c =>
      rw [hp] at h hi
      dsimp only at h
      cases hin : T.inside with
      | some x => rw [hin] at h; cases h; exact same hT rfl
      | none =>
        rw [hin] at h
        cases h
        obtain ⟨m', rfl, hi⟩ := hi
        refine ⟨f i, May.enter (T := T) (c := .taking (X.alloc T.st n) c) rfl rfl (fun j _ => ?_)
          ⟨k, m', ha _ _, hi, by rw [Nat.add_mul] at hm; omega⟩, rfl, Nat.le_refl _⟩
        have := hT j
        rw [Gang.holds_free hin] at this
        exact this
    | dealloc p n c =>
      rw [hp] at h hi
      dsimp only at h
      cases hin : T.inside with
      | some x => rw [hin] at h; cases h; exact same hT rfl
      | none =>
        rw [hin] at h
        cases h
        refine ⟨f i, May.enter (T := T) (c := .giving (X.dealloc T.st p n) c) rfl rfl (fun j _ => ?_) ⟨m, hi, hm⟩, rfl, Nat.le_refl _⟩
        have := hT j
        rw [Gang.holds_free hin] at this
        exact this

theorem step_oom {T : Gang X α} {sys : Sys} {i : Nat} {w w' : World} (h : T.step sys i w = .oom w') : w'.tick = w.tick := by
  have frugal : ∀ {β γ : Type} {c : M β} {g : β → M γ}, Frugal c → (∀ b, Frugal (g b)) → (c >>= g) w = .oom w' → w'.tick = w.tick := fun h1 h2 h3 => by
    have := Frugal.bind h1 h2 w
    rw [h3] at this
    exact this.elim
  unfold Gang.step at h
  cases hh : T.holds i with
  | some c =>
    rw [hh] at h
    dsimp only at h
    cases ho : c.over with
    | some r => rw [ho] at h; cases h
    | none =>
      rw [ho] at h
      rcases bind_oom h with h1 | ⟨_, _, _, h1⟩
      · cases c with
        | taking x c =>
          rcases bind_oom (show (x.step sys >>= fun x' => Pure.pure (Visit.taking x' c) : M (Visit X α)) w = .oom w' from h1) with h2 | ⟨_, _, _, h2⟩
          · rw [Body.step_oom h2]
          · cases h2
        | giving x c =>
          rcases bind_oom (show (x.step sys >>= fun x' => Pure.pure (Visit.giving x' c) : M (Visit X α)) w = .oom w' from h1) with h2 | ⟨_, _, _, h2⟩
          · rw [Body.step_oom h2]
          · cases h2
      · cases h1
  | none =>
    rw [hh] at h
    dsimp only at h
    cases hp : T.threads i with
    | ret a => rw [hp] at h; cases h
    | stop => rw [hp] at h; cases h; rfl
    | ub => rw [hp] at h; cases h
    | load p k => rw [hp] at h; exact frugal (Frugal.load p) (fun _ => Frugal.pure _) h
    | store p v k => rw [hp] at h; exact frugal (Frugal.store p v) (fun _ => Frugal.pure _) h
    | alloc n k =>
      rw [hp] at h
      dsimp only at h
      by_cases hi : T.inside.isSome = true
      · rw [if_pos hi] at h; cases h
      · rw [if_neg hi] at h; cases h
    | dealloc p n k =>
      rw [hp] at h
      dsimp only at h
      by_cases hi : T.inside.isSome = true
      · rw [if_pos hi] at h; cases h
      · rw [if_neg hi] at h; cases h

theorem sum_upd {l : List Nat} (hl : l.Nodup) {i : Nat} (hi : i ∈ l) (f : Nat → Nat) (y : Nat) : (l.map (upd f i y)).sum + f i = (l.map f).sum + y := by
  induction l with
  | nil => cases hi
  | cons a l ih =>
    rw [List.nodup_cons] at hl
    simp only [List.map_cons, List.sum_cons]
    rcases List.mem_cons.1 hi with rfl | hi
    · have e : l.map (upd f i y) = l.map f := List.map_congr_left fun j hj => if_neg (by rintro rfl; exact hl.1 hj)
      rw [e, show upd f i y i = y from if_pos rfl]
      omega
    · have := ih hl.2 hi
      rw [show upd f i y a = f a from if_neg (by rintro rfl; exact hl.1 hi)]
      omega

theorem May.run (ha : ∀ s n, (X.alloc s n).MCalls k) (sys : Sys) {l : List Nat} (hl : l.Nodup) (is : List Nat) (his : ∀ i ∈ is, i ∈ l) {T : Gang X α}
    {f : Nat → Nat} (hT : T.May k f) : Mallocs (l.map f).sum (T.run sys is) := by
  induction is generalizing T f with
  | nil => exact Mallocs.pure _
  | cons i is ih =>
    intro w
    show MallocsAt _ w ((T.step sys i >>= fun T' => T'.run sys is) w)
    rw [M.bind_apply]
    cases hs : T.step sys i w with
    | ok T1 w1 =>
      obtain ⟨y, h1, h2, h3⟩ := hT.step ha hs
      have h4 := ih (fun j hj => his j (by simp [hj])) h1 w1
      have h5 := sum_upd hl (his i (by simp)) f y
      show MallocsAt _ w (T1.run sys is w1)
      cases hr : T1.run sys is w1 with
      | ok T2 w2 =>
        rw [hr] at h4
        have h6 : w1.tick ≤ w2.tick ∧ w2.tick ≤ w1.tick + (l.map (upd f i y)).sum := h4
        exact ⟨by omega, by omega⟩
      | oom w2 =>
        rw [hr] at h4
        have h6 : w1.tick ≤ w2.tick ∧ w2.tick ≤ w1.tick + (l.map (upd f i y)).sum := h4
        exact ⟨by omega, by omega⟩
      | ub => trivial
    | oom w1 => exact ⟨Nat.le_of_eq (step_oom hs).symm, by rw [step_oom hs]; exact Nat.le_add_right _ _⟩
    | ub => trivial

end Gang

/-! ### The property -/

/-- **C106, threads.** Any number of threads share one `threaded` allocator, each with vectors, arrays or heaps of its own, and move on access by
access, also inside the calls. Together they call `malloc` at most `atStart` times, and `perRequest` times for each request of theirs
(`Job.asks`, see C100). -/
theorem C106_threads (sys : Sys) (t : AllocTy) (b : Nat) (jobs : Nat → Job) (sched : List Nat) :
    Mallocs (t.atStart + (sched.dedup.map fun i => (jobs i).asks).sum * t.perRequest) (gangPlay (t.denoteB sys.plat) sys b (fun i => (jobs i).prog) sched) := by
  refine Mallocs.bind (t.mcalls_init sys.plat b).seq fun s => ?_
  rw [show (sched.dedup.map fun i => (jobs i).asks).sum * t.perRequest = (sched.dedup.map fun i => (jobs i).asks * t.perRequest).sum from by
    generalize sched.dedup = l
    induction l with
    | nil => exact Nat.zero_mul _
    | cons a l ih => simp only [List.map_cons, List.sum_cons, Nat.add_mul, ih]]
  exact Gang.May.run (f := fun i => (jobs i).asks * t.perRequest) (fun s n => t.mcalls_alloc sys.plat s n) sys (List.nodup_dedup _) sched (fun i hi => List.mem_dedup.2 hi) fun i =>
    ⟨(jobs i).asks, (jobs i).asks_prog, Nat.le_refl _⟩

/-- **C106, threads in a fixed buffer.** If the allocator has no `mallocator`, `cascading` or `shared` in it, the threads never call `malloc`. -/
theorem C106_threads_no_malloc (sys : Sys) (t : AllocTy) (ht : t.usesMalloc = false) (b : Nat) (jobs : Nat → Job) (sched : List Nat) :
    Mallocs 0 (gangPlay (t.denoteB sys.plat) sys b (fun i => (jobs i).prog) sched) := by
  obtain ⟨h1, h2⟩ := (C106_buffers t).1 ht
  have := C106_threads sys t b jobs sched
  rwa [h1, h2, Nat.mul_zero] at this

/-! ### Concrete instances -/

/-- Two threads over `threaded<mallocator>` with three operations together: the bound is 3, and there are two calls of `malloc`. -/
example : (AllocTy.threaded .mallocator).atStart + ([0, 1].map fun i => (giveJobs i).asks).sum * (AllocTy.threaded .mallocator).perRequest = 3 ∧
    (gangPlay ((AllocTy.threaded .mallocator).denoteB .direct) (demoSys .direct) 4096 (fun i => (giveJobs i).prog) (List.replicate 20 [0, 1]).flatten
      (demoWorld 64)).test (fun _ w => w.tick == 2) = true := by decide +kernel

/-- Two threads over a free list over a buffer: no call. -/
example : (AllocTy.threaded (.freelist 0 64 (.linear 256))).usesMalloc = false ∧
    (gangPlay ((AllocTy.threaded (.freelist 0 64 (.linear 256))).denoteB .direct) (demoSys .direct) 4096 (fun i => (giveJobs i).prog)
      (List.replicate 60 [0, 1]).flatten (demoWorld (AllocTy.threaded (.freelist 0 64 (.linear 256))).size)).test (fun T w => w.tick == 0 &&
        match T.threads 0, T.threads 1 with
        | .ret _, .ret _ => true
        | _, _ => false) = true := by decide +kernel

end KTL
