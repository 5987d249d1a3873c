import Verif.Props.Copies

/- C67: giving back the null pointer. -/
namespace KTL

/-! ### Programs that give back null pointers -/

/-- One step of a program that, besides using an allocator properly, passes null pointers to `deallocate` (as after a refused request,
without looking at the result). -/
inductive NOp where
  | op (o : Op)
  /-- call `deallocate(nullptr, n)` -/
  | freeNull (n : Nat)
  deriving DecidableEq, Repr

def nullStep (sys : Sys) {A : Allocator} (c : Client A) : NOp → M (Client A)
  | .op o => c.step sys o
  | .freeNull n => do
    let s ← A.dealloc c.st 0 n
    pure { c with st := s }

def nullRun (sys : Sys) {A : Allocator} (c : Client A) : List NOp → M (Client A)
  | [] => pure c
  | o :: os => do
    let c' ← nullStep sys c o
    nullRun sys c' os

/-- Construct an allocator at address `b` and run the program. -/
def playNull (sys : Sys) (A : Allocator) (b : Nat) (ops : List NOp) : M (Client A) := do
  let s ← A.init b
  nullRun sys { st := s, live := [], foreign := [] } ops

/-- the same program without the null pointers -/
def withoutNull : List NOp → List Op
  | [] => []
  | .op o :: os => o :: withoutNull os
  | .freeNull _ :: os => withoutNull os

/-- `owns(nullptr)` may be true: only `null_allocator` says so -/
def AllocTy.ownsNull : AllocTy → Bool
  | null => true
  | mallocator => false
  | linear _ => false
  | stack _ => false
  | freelist _ _ A => A.ownsNull
  | fallback P F => P.ownsNull || F.ownsNull
  | segragator _ P F => P.ownsNull || F.ownsNull
  | cascading A => A.ownsNull
  | overflow A => A.ownsNull
  | threaded A => A.ownsNull
  | shared A => A.ownsNull
  | reference A => A.ownsNull

/-- A null pointer given to this composition never reaches a `linear_allocator` or `stack_allocator`. -/
def AllocTy.ignoresNull : AllocTy → Bool
  | null => true
  | mallocator => true
  | linear _ => false
  | stack _ => false
  | freelist _ _ _ => true
  | fallback P F => (P.ignoresNull || !P.ownsNull) && F.ignoresNull
  | segragator _ P F => P.ignoresNull && F.ignoresNull
  | cascading A => !A.ownsNull
  | overflow _ => true
  | threaded A => A.ignoresNull
  | shared A => A.ignoresNull
  | reference A => A.ignoresNull

/-! ### Proof -/

/-- equal up to the counters of `overflow` outside of `freelist` and `cascading` -/
def AllocTy.alike (sys : Sys) : (t : AllocTy) → (s s' : (t.denote sys).St) → Prop
  | null => Eq
  | mallocator => Eq
  | linear _ => Eq
  | stack _ => Eq
  | freelist _ _ _ => Eq
  | fallback P F => fun s s' => P.alike sys s.1 s'.1 ∧ F.alike sys s.2 s'.2
  | segragator _ P F => fun s s' => P.alike sys s.1 s'.1 ∧ F.alike sys s.2 s'.2
  | cascading _ => Eq
  | overflow A => fun s s' => A.alike sys s.a s'.a
  | threaded A => A.alike sys
  | shared A => fun s s' => s.1 = s'.1 ∧ A.alike sys s.2 s'.2
  | reference A => A.alike sys


theorem threaded_ownsD {A : Allocator} (s : A.St) (p : Nat) : (threaded A).ownsD s p = A.ownsD s p := by
  unfold Allocator.ownsD threaded
  cases A.owns <;> rfl

theorem reference_ownsD {A : Allocator} (s : A.St) (p : Nat) : (reference A).ownsD s p = A.ownsD s p := by
  unfold Allocator.ownsD reference
  cases A.owns <;> rfl

theorem fallback_free_primary {P F : Allocator} {s : P.St × F.St} {p n : Nat} {w : World} {s' : P.St} (ho : P.ownsD s.1 p = true)
    (e : P.dealloc s.1 p n w = .ok s' w) : (fallback P F).dealloc s p n w = .ok (s', s.2) w := by
  show (if P.ownsD s.1 p then _ else _ : M _) w = _
  rw [if_pos ho]
  exact (bind_of_ok e).trans rfl

theorem fallback_free_fallback {P F : Allocator} {s : P.St × F.St} {p n : Nat} {w : World} {s' : F.St} (ho : ¬ P.ownsD s.1 p = true)
    (e : F.dealloc s.2 p n w = .ok s' w) : (fallback P F).dealloc s p n w = .ok (s.1, s') w := by
  show (if P.ownsD s.1 p then _ else _ : M _) w = _
  rw [if_neg ho]
  exact (bind_of_ok e).trans rfl

theorem segragator_free_primary {T : Nat} {P F : Allocator} {s : P.St × F.St} {p n : Nat} {w : World} {s' : P.St} (ho : n ≤ T)
    (e : P.dealloc s.1 p n w = .ok s' w) : (segragator T P F).dealloc s p n w = .ok (s', s.2) w := by
  show (if n ≤ T then _ else _ : M _) w = _
  rw [if_pos ho]
  exact (bind_of_ok e).trans rfl

theorem segragator_free_fallback {T : Nat} {P F : Allocator} {s : P.St × F.St} {p n : Nat} {w : World} {s' : F.St} (ho : ¬ n ≤ T)
    (e : F.dealloc s.2 p n w = .ok s' w) : (segragator T P F).dealloc s p n w = .ok (s.1, s') w := by
  show (if n ≤ T then _ else _ : M _) w = _
  rw [if_neg ho]
  exact (bind_of_ok e).trans rfl

theorem freelist_free_null (Min Max : Nat) (A : Allocator) (s : Freelist.St A.St) (n : Nat) (w : World) :
    (freelist Min Max A).dealloc s 0 n w = .ok s w := by
  show (if n > Min ∧ n ≤ Max ∧ (0 : Nat) ≠ 0 then _ else _ : M _) w = _
  rw [if_neg (by simp)]; rfl

theorem overflow_free_null (A : Allocator) (s : Overflow.St A.St) (n : Nat) (w : World) :
    (overflow A).dealloc s 0 n w = .ok ⟨s.a, Overflow.wrap64 (s.allocs - n), s.constructs⟩ w := by
  simp only [overflow, ne_eq, not_true_eq_false, if_false]
  rfl

theorem blind_shared (sys : Sys) {A : Allocator} {R : A.St → A.St → Prop} (hA : Blind A R) :
    Blind (sharedAlloc sys A) (fun s s' => s.1 = s'.1 ∧ R s.2 s'.2) := by
  have opt : ∀ c : Option (A.St → Nat → M A.St), SameOpt R c →
      SameOpt (S := Nat × A.St) (fun s s' => s.1 = s'.1 ∧ R s.2 s'.2) (c.map fun c s p => do
        let a ← c s.2 p
        pure (s.1, a)) := by
    intro c hc f hf s s' p h
    cases c with
    | none => cases hf
    | some c => cases hf; exact SameM.bind (hc c rfl _ _ p h.2) fun _ _ hr => SameM.pure ⟨h.1, hr⟩
  refine ⟨?_, ?_, opt _ hA.construct, opt _ hA.destroy, ?_⟩
  · intro s s' n h
    exact SameM.bind (hA.alloc _ _ n h.2) fun _ _ hr => SameM.pure ⟨hr.1, h.1, hr.2⟩
  · intro s s' p n h
    exact SameM.bind (hA.dealloc _ _ p n h.2) fun _ _ hr => SameM.pure ⟨h.1, hr⟩
  · intro s s' p h
    have e : ∀ s, (sharedAlloc sys A).ownsD s p = A.ownsD s.2 p := fun s => by
      unfold Allocator.ownsD sharedAlloc; cases A.owns <;> rfl
    rw [e, e]
    exact hA.owns _ _ p h.2

theorem alike_blind (sys : Sys) (t : AllocTy) : Blind (t.denote sys) (t.alike sys) := by
  induction t with
  | fallback P F h1 h2 => exact blind_fallback h1 h2
  | segragator T P F h1 h2 => exact blind_segragator h1 h2
  | overflow A h => exact blind_overflow h
  | threaded A h =>
    exact ⟨h.alloc, h.dealloc, h.construct, h.destroy, fun s s' p hr => (threaded_ownsD _ _).trans ((h.owns s s' p hr).trans (threaded_ownsD _ _).symm)⟩
  | shared A h => exact blind_shared sys h
  | reference A h =>
    exact ⟨h.alloc, h.dealloc, h.construct, h.destroy, fun s s' p hr => (reference_ownsD _ _).trans ((h.owns s s' p hr).trans (reference_ownsD _ _).symm)⟩
  | _ => exact Blind.eq _

theorem alike_refl (sys : Sys) (t : AllocTy) (s : (t.denote sys).St) : t.alike sys s s := by
  induction t with
  | fallback P F h1 h2 => exact ⟨h1 _, h2 _⟩
  | segragator T P F h1 h2 => exact ⟨h1 _, h2 _⟩
  | overflow A h => exact h _
  | threaded A h => exact h _
  | shared A h => exact ⟨rfl, h _⟩
  | reference A h => exact h _
  | _ => rfl

theorem alike_trans (sys : Sys) (t : AllocTy) {a b c : (t.denote sys).St} (hab : t.alike sys a b) (hbc : t.alike sys b c) : t.alike sys a c := by
  induction t with
  | fallback P F h1 h2 => exact ⟨h1 hab.1 hbc.1, h2 hab.2 hbc.2⟩
  | segragator T P F h1 h2 => exact ⟨h1 hab.1 hbc.1, h2 hab.2 hbc.2⟩
  | overflow A h => exact h hab hbc
  | threaded A h => exact h hab hbc
  | shared A h => exact ⟨hab.1.trans hbc.1, h hab.2 hbc.2⟩
  | reference A h => exact h hab hbc
  | _ => exact Eq.trans hab hbc

theorem nodes_own_null {plat : Plat} {A : Allocator} {fA : Nat → Prop} (hA : Sound A fA)
    (hn : ∀ b s L h, hA.Inv b s L h → A.ownsD s 0 = false) :
    ∀ (NL : List (Cascading.Node A.St × List (Nat × Nat))) (h : Heap), Cascading.nodesInv plat hA NL h →
      (NL.map Prod.fst).any (fun nd => A.ownsD nd.st 0) = false
  | [], _, _ => rfl
  | x :: NL, _, hi => by
    obtain ⟨g1, g2, _, rfl, ⟨g3, g4, _, rfl, hx, _⟩, hNL⟩ := hi
    rw [List.map_cons, List.any_cons, hn _ _ _ _ hx, Bool.false_or]
    exact nodes_own_null hA hn NL _ hNL

/-- `owns(nullptr)` is false in every state the contract allows -/
theorem owns_null (sys : Sys) : ∀ (t : AllocTy) (hwf : t.WF), t.ownsNull = false → ∀ b s L h, (t.sound sys hwf).Inv b s L h →
    (t.denote sys).ownsD s 0 = false
  | .null, _, hn => nomatch hn
  | .mallocator, _, _ => fun _ _ _ _ _ => rfl
  | .linear S, _, _ => by
    rintro b s L h ⟨_, hok, _⟩
    have h1 := hok.base_ne
    have h2 := hok.base_eq
    show (decide (s.base ≤ 0) && _) = false
    rw [decide_eq_false (by omega)]; rfl
  | .stack S, _, _ => by
    rintro b s L h ⟨_, hok, _⟩
    have h1 := hok.base_ne
    have h2 : s.data = b := hok.base_eq
    show (decide (s.data ≤ 0) && _) = false
    rw [decide_eq_false (by omega)]; rfl
  | .freelist m M A, hw, hn => by
    rintro b s L h ⟨_, R, _, hi⟩
    have e : (KTL.freelist m M (A.denote sys)).ownsD s 0 = (A.denote sys).ownsD s.a 0 := by
      unfold Allocator.ownsD KTL.freelist; cases (A.denote sys).owns <;> rfl
    obtain ⟨h1, h2, _, _, hi, _⟩ := hi
    exact e.trans (owns_null sys A hw.1 hn _ _ _ _ hi)
  | .fallback P F, hw, hn => by
    simp only [AllocTy.ownsNull, Bool.or_eq_false_iff] at hn
    rintro b s L h ⟨_, L1, L2, _, h1, h2, _, _, hi, hj⟩
    have i1 := owns_null sys P hw.1 hn.1 _ _ _ _ hi
    have i2 := owns_null sys F hw.2.1 hn.2 _ _ _ _ hj
    show (KTL.fallback _ _).ownsD s 0 = false
    unfold Allocator.ownsD at i1 i2 ⊢
    simp only [KTL.fallback, owns2]
    cases hp : (P.denote sys).owns <;> cases hf : (F.denote sys).owns <;> simp_all
  | .segragator T P F, hw, hn => by
    simp only [AllocTy.ownsNull, Bool.or_eq_false_iff] at hn
    rintro b s L h ⟨_, h1, h2, _, _, hi, hj⟩
    have i1 := owns_null sys P hw.1 hn.1 _ _ _ _ hi
    have i2 := owns_null sys F hw.2 hn.2 _ _ _ _ hj
    show (KTL.segragator _ _ _).ownsD s 0 = false
    unfold Allocator.ownsD at i1 i2 ⊢
    simp only [KTL.segragator, owns2]
    cases hp : (P.denote sys).owns <;> cases hf : (F.denote sys).owns <;> simp_all
  | .cascading A, hw, hn => by
    rintro b s L h ⟨_, NL, ⟨rfl, _, _⟩, h1, h2, _, _, hi, _⟩
    exact nodes_own_null _ (fun b s L h hx => owns_null sys A hw.1 hn b s L h hx) NL h1 hi
  | .overflow A, hw, hn => by
    rintro b s L h ⟨_, h1, h2, _, _, hi, _⟩
    have e : (KTL.overflow (A.denote sys)).ownsD s 0 = (A.denote sys).ownsD s.a 0 := by
      unfold Allocator.ownsD KTL.overflow; cases (A.denote sys).owns <;> rfl
    exact e.trans (owns_null sys A hw hn _ _ _ _ hi)
  | .threaded A, hw, hn => by
    rintro b s L h ⟨h1, h2, _, _, hi, _⟩
    exact (threaded_ownsD _ _).trans (owns_null sys A hw hn _ _ _ _ hi)
  | .shared A, hw, hn => by
    rintro b s L h ⟨_, h1, h2, _, _, hi, _⟩
    have e : (KTL.sharedAlloc sys (A.denote sys)).ownsD s 0 = (A.denote sys).ownsD s.2 0 := by
      unfold Allocator.ownsD KTL.sharedAlloc; cases (A.denote sys).owns <;> rfl
    exact e.trans (owns_null sys A hw.1 hn _ _ _ _ hi)
  | .reference A, hw, hn => by
    rintro b s L h ⟨h1, h2, _, _, hi, _⟩
    exact (reference_ownsD _ _).trans (owns_null sys A hw hn _ _ _ _ hi)

theorem cascading_null (sys : Sys) (A : Allocator) (n : Nat) (prev : Bool) (w : World) :
    ∀ l : List (Cascading.Node A.St), l.any (fun nd => A.ownsD nd.st 0) = false → Cascading.dealloc sys A 0 n prev l w = .ok l w
  | [], _ => rfl
  | nd :: l, h => by
    rw [List.any_cons, Bool.or_eq_false_iff] at h
    rw [Cascading.dealloc, if_neg (by rw [h.1]; exact Bool.false_ne_true)]
    exact (bind_of_ok (cascading_null sys A n true w l h.2)).trans rfl

/-- giving back null changes nothing but the counters of `overflow` -/
theorem dealloc_null (sys : Sys) : ∀ (t : AllocTy) (hwf : t.WF), t.ignoresNull = true → ∀ b s L h, (t.sound sys hwf).Inv b s L h →
    ∀ n w, ∃ s', (t.denote sys).dealloc s 0 n w = .ok s' w ∧ t.alike sys s' s
  | .null, _, _ => fun _ _ _ _ _ _ _ => ⟨_, rfl, rfl⟩
  | .mallocator, _, _ => fun _ _ _ _ _ _ w => ⟨(), by
      show alignedFree sys 0 w = _
      unfold alignedFree
      cases sys.plat <;> rfl, rfl⟩
  | .linear _, _, hn => nomatch hn
  | .stack _, _, hn => nomatch hn
  | .freelist m M A, _, _ => by
    intro b s L h _ n w
    exact ⟨s, freelist_free_null _ _ _ s n w, rfl⟩
  | .fallback P F, hw, hn => by
    simp only [AllocTy.ignoresNull, Bool.and_eq_true] at hn
    rintro b s L h ⟨_, L1, L2, _, h1, h2, _, _, hi, hj⟩ n w
    by_cases ho : (P.denote sys).ownsD s.1 0 = true
    · have hp : P.ignoresNull = true := by
        cases hp : P.ignoresNull with
        | true => rfl
        | false =>
          have h3 : P.ownsNull = false := by simpa [hp] using hn.1
          rw [owns_null sys P hw.1 h3 _ _ _ _ hi] at ho
          cases ho
      obtain ⟨s', e, hl⟩ := dealloc_null sys P hw.1 hp _ _ _ _ hi n w
      exact ⟨(s', s.2), fallback_free_primary ho e, hl, alike_refl sys F _⟩
    · obtain ⟨s', e, hl⟩ := dealloc_null sys F hw.2.1 hn.2 _ _ _ _ hj n w
      exact ⟨(s.1, s'), fallback_free_fallback ho e, alike_refl sys P _, hl⟩
  | .segragator T P F, hw, hn => by
    simp only [AllocTy.ignoresNull, Bool.and_eq_true] at hn
    rintro b s L h ⟨_, h1, h2, _, _, hi, hj⟩ n w
    by_cases ho : n ≤ T
    · obtain ⟨s', e, hl⟩ := dealloc_null sys P hw.1 hn.1 _ _ _ _ hi n w
      exact ⟨(s', s.2), segragator_free_primary ho e, hl, alike_refl sys F _⟩
    · obtain ⟨s', e, hl⟩ := dealloc_null sys F hw.2 hn.2 _ _ _ _ hj n w
      exact ⟨(s.1, s'), segragator_free_fallback ho e, alike_refl sys P _, hl⟩
  | .cascading A, hw, hn => by
    intro b s L h hi n w
    have hn' : (AllocTy.cascading A).ownsNull = false := by simpa [AllocTy.ignoresNull, AllocTy.ownsNull] using hn
    exact ⟨s, cascading_null sys _ n false w s (owns_null sys (.cascading A) hw hn' _ _ _ _ hi), rfl⟩
  | .overflow A, _, _ => by
    intro b s L h _ n w
    exact ⟨_, overflow_free_null _ s n w, alike_refl sys A _⟩
  | .threaded A, hw, hn => by
    rintro b s L h ⟨h1, h2, _, _, hi, _⟩ n w
    exact dealloc_null sys A hw hn _ _ _ _ hi n w
  | .shared A, hw, hn => by
    rintro b s L h ⟨_, h1, h2, _, _, hi, _⟩ n w
    obtain ⟨s', e, hl⟩ := dealloc_null sys A hw.1 hn _ _ _ _ hi n w
    exact ⟨(s.1, s'), (bind_of_ok e).trans rfl, rfl, hl⟩
  | .reference A, hw, hn => by
    rintro b s L h ⟨h1, h2, _, _, hi, _⟩ n w
    exact dealloc_null sys A hw hn _ _ _ _ hi n w

theorem nullRun_append (sys : Sys) {A : Allocator} (c : Client A) (o1 o2 : List NOp) :
    nullRun sys c (o1 ++ o2) = (nullRun sys c o1 >>= fun c' => nullRun sys c' o2) := by
  induction o1 generalizing c with
  | nil => simp [nullRun]
  | cons o os ih => simp only [List.cons_append, nullRun, ih, bind_assoc]

theorem playNull_snoc (sys : Sys) (A : Allocator) (b : Nat) (ops : List NOp) (o : NOp) :
    playNull sys A b (ops ++ [o]) = (playNull sys A b ops >>= fun c => nullStep sys c o) := by
  simp only [playNull, nullRun_append, bind_assoc]
  congr 1; funext s; congr 1; funext c
  simp only [nullRun]
  exact bind_pure _

theorem withoutNull_append (o1 o2 : List NOp) : withoutNull (o1 ++ o2) = withoutNull o1 ++ withoutNull o2 := by
  induction o1 with
  | nil => rfl
  | cons o os ih => cases o <;> simp [withoutNull, ih]

theorem null_play (sys : Sys) (t : AllocTy) (hwf : t.WF) (hn : t.ignoresNull = true) (b : Nat) (w : World) (hs : Storage w b t.size)
    (ops : List NOp) (hops : Sane t (withoutNull ops)) :
    match playNull sys (t.denote sys) b ops w, play sys (t.denote sys) b (withoutNull ops) w with
    | .ok c w1, .ok d w2 => w1 = w2 ∧ SameView (t.alike sys) c d
    | .oom w1, .oom w2 => w1 = w2
    | _, _ => False := by
  induction ops using snocRec with
  | nil =>
    have h1 := C01_no_undefined_behaviour sys t hwf b w hs [] hops
    show match playNull sys (t.denote sys) b [] w, play sys (t.denote sys) b [] w with
      | .ok c w1, .ok d w2 => w1 = w2 ∧ SameView (t.alike sys) c d
      | .oom w1, .oom w2 => w1 = w2
      | _, _ => False
    have e : playNull sys (t.denote sys) b [] = play sys (t.denote sys) b [] := rfl
    rw [e]
    cases hp : play sys (t.denote sys) b [] w with
    | ok c w1 => exact ⟨rfl, alike_refl sys t _, rfl, rfl, rfl, rfl⟩
    | oom w1 => exact rfl
    | ub => rw [hp] at h1; exact h1
  | append_singleton ops o ih =>
    rw [withoutNull_append] at hops ⊢
    have hpre : Sane t (withoutNull ops) := fun n hm => hops n (List.mem_append.2 (.inl hm))
    have ih := ih hpre
    have hh := history sys t hwf b w hs _ (hpre.fits sys hwf)
    rw [playNull_snoc, M.bind_apply]
    cases o with
    | op o =>
      have hsafe := C01_no_undefined_behaviour sys t hwf b w hs _ hops
      have e : play sys (t.denote sys) b (withoutNull ops ++ withoutNull [.op o]) =
          (play sys (t.denote sys) b (withoutNull ops) >>= fun d => d.step sys o) := by
        rw [play_append]
        congr 1; funext d
        exact bind_pure _
      rw [e, M.bind_apply] at hsafe ⊢
      cases hc : playNull sys (t.denote sys) b ops w <;> cases hd : play sys (t.denote sys) b (withoutNull ops) w <;>
        simp only [hc, hd] at ih hsafe ⊢
      · obtain ⟨rfl, hv⟩ := ih
        rename_i c w1 d
        have := (alike_blind sys t).step sys hv o w1
        show match c.step sys o w1, d.step sys o w1 with
          | .ok c w1, .ok d w2 => w1 = w2 ∧ SameView (t.alike sys) c d
          | .oom w1, .oom w2 => w1 = w2
          | _, _ => False
        cases h1 : c.step sys o w1 <;> cases h2 : d.step sys o w1 <;> simp only [h1, h2] at this hsafe ⊢ <;> first | exact this | exact hsafe
      · exact ih
    | freeNull n =>
      rw [show withoutNull [NOp.freeNull n] = [] from rfl, List.append_nil]
      cases hc : playNull sys (t.denote sys) b ops w <;> cases hd : play sys (t.denote sys) b (withoutNull ops) w <;>
        simp only [hc, hd] at ih hh ⊢
      · obtain ⟨rfl, hv⟩ := ih
        rename_i c w1 d
        obtain ⟨h, hf, _, _, ⟨g1, g2, _, _, hI, _⟩, _⟩ := hh
        obtain ⟨s', e, hl⟩ := dealloc_null sys t hwf hn _ _ _ _ hI n w1
        have hb := (alike_blind sys t).dealloc c.st d.st 0 n hv.1 w1
        rw [e] at hb
        cases hx : (t.denote sys).dealloc c.st 0 n w1 with
        | ok s1 w2 =>
          rw [hx] at hb
          obtain ⟨rfl, hb⟩ := hb
          have e2 : nullStep sys c (.freeNull n) w2 = .ok { c with st := s1 } w2 := (bind_of_ok hx).trans rfl
          rw [e2]
          exact ⟨rfl, alike_trans sys t hb hl, hv.2⟩
        | oom w2 => rw [hx] at hb; exact hb.elim
        | ub => rw [hx] at hb; exact hb.elim
      · exact ih

/-! ### C67 -/

/-- **C67, what does hold.** A program that uses an allocator properly, and in addition passes null pointers to `deallocate` whenever it
likes and with any sizes, has no undefined behaviour and observes the same (blocks and contents, refused requests, the whole memory, what
is printed) as without those calls, if the composition is such that they never reach a `linear_allocator` or `stack_allocator`.

Missing from the full statement: those two, see `C67_stack_false` and `C67_linear_false`; and what the destructor of `overflow` reports, see
`C67_overflow_false_report`. -/
theorem C67_null_ignored_partial (sys : Sys) (t : AllocTy) (hwf : t.WF) (hn : t.ignoresNull = true) (b : Nat) (w : World)
    (hs : Storage w b t.size) (ops : List NOp) (hops : Sane t (withoutNull ops)) :
    match playNull sys (t.denote sys) b ops w, play sys (t.denote sys) b (withoutNull ops) w with
    | .ok c w1, .ok d w2 => w1 = w2 ∧ c.live = d.live ∧ c.foreign = d.foreign ∧ c.refused = d.refused
    | .oom w1, .oom w2 => w1 = w2 ∧ w1.failed = true
    | _, _ => False := by
  have h := null_play sys t hwf hn b w hs ops hops
  have h1 := C01_no_undefined_behaviour sys t hwf b w hs _ hops
  cases hc : playNull sys (t.denote sys) b ops w <;> cases hd : play sys (t.denote sys) b (withoutNull ops) w <;>
    simp only [hc, hd] at h h1 ⊢
  · exact ⟨h.1, h.2.2.1, h.2.2.2.1, h.2.2.2.2.1⟩
  · exact ⟨h, h ▸ h1⟩

/-- two live blocks at the same address -/
def sameBlockTwice {A : Allocator} (c : Client A) : Bool :=
  match c.live with
  | [x, y] => x.1 == y.1 && x.2.length == 16 && y.2.length == 16
  | _ => false

/-- **C67 is false for `stack_allocator`** (which has no assertion against it): a block of 16 bytes is live, a request for 512 bytes is
refused, the null pointer is given back with the size 16, and the next request gets the live block again. -/
theorem C67_stack_false :
    ((playNull (demoSys .direct) (AllocTy.denote (demoSys .direct) (.stack 256)) 4096
      [.op (.allocate 16), .op (.allocate 512), .freeNull 16, .op (.allocate 16)] (demoWorld 272)).test fun c _ => sameBlockTwice c) = true := by
  decide +kernel

/-- **C67 is false for `linear_allocator`** when assertions are off. -/
theorem C67_linear_false :
    ((playNull (demoSys .direct) (AllocTy.denote (demoSys .direct) (.linear 256)) 4096
      [.op (.allocate 16), .op (.allocate 512), .freeNull 16, .op (.allocate 16)] (demoWorld 272)).test fun c _ => sameBlockTwice c) = true := by
  decide +kernel

/-- **C67 is false for the report of `overflow`**: giving back null with size 8 makes the destructor report that 8 bytes too many were
freed. -/
theorem C67_overflow_false_report :
    ((do
      let c ← playNull (demoSys .direct) (overflow (mallocator (demoSys .direct))) 4096 [.freeNull 8]
      (overflow (mallocator (demoSys .direct))).fini c.st) (demoWorld 32)).test (fun _ w => decide (w.out = [Msg.leak (-8)])) = true := by
  decide +kernel

/-! ### `owns(nullptr)` (C06) -/

/-- There is a `null_allocator` in the composition, other than in the nodes of a `cascading` (which may have none). -/
def AllocTy.saysNull : AllocTy → Bool
  | null => true
  | freelist _ _ A => A.saysNull
  | fallback P F => P.saysNull || F.saysNull
  | segragator _ P F => P.saysNull || F.saysNull
  | overflow A => A.saysNull
  | threaded A => A.saysNull
  | shared A => A.saysNull
  | reference A => A.saysNull
  | _ => false

/-- **C06, null pointer.** `owns(nullptr)` is false, in every state a program can bring an allocator into, unless there is a
`null_allocator` in the composition. -/
theorem C06_owns_null (sys : Sys) (t : AllocTy) (hwf : t.WF) (hn : t.ownsNull = false) (b : Nat) (w : World)
    (hs : Storage w b t.size) (ops : List Op) (hops : Sane t ops) (c : Client (t.denote sys)) (w' : World)
    (hrun : play sys (t.denote sys) b ops w = .ok c w')
    (owns : (t.denote sys).St → Nat → Bool) (ho : (t.denote sys).owns = some owns) : owns c.st 0 = false := by
  have := history sys t hwf b w hs ops (hops.fits sys hwf)
  rw [hrun] at this
  obtain ⟨h, hf, _, _, ⟨h1, h2, _, _, hI, _⟩, _⟩ := this
  have e := owns_null sys t hwf hn _ _ _ _ hI
  unfold Allocator.ownsD at e
  rw [ho] at e
  exact e

/-- **C06, null pointer.** Otherwise it is true: the null pointer is what `null_allocator` returns. -/
theorem C06_null_allocator_owns_null (sys : Sys) : ∀ (t : AllocTy), t.saysNull = true → ∀ owns, (t.denote sys).owns = some owns →
    ∀ s, owns s 0 = true
  | .null, _, o, ho, s => by cases ho; rfl
  | .mallocator, h, _, _, _ => nomatch h
  | .linear _, h, _, _, _ => nomatch h
  | .stack _, h, _, _, _ => nomatch h
  | .cascading _, h, _, _, _ => nomatch h
  | .freelist m M A, h, o, ho, s => by
    replace ho : (A.denote sys).owns.map (fun o (s : Freelist.St (A.denote sys).St) p => o s.a p) = some o := ho
    cases hA : (A.denote sys).owns with
    | none => rw [hA] at ho; cases ho
    | some o' => rw [hA] at ho; cases ho; exact C06_null_allocator_owns_null sys A h o' hA s.a
  | .overflow A, h, o, ho, s => by
    replace ho : (A.denote sys).owns.map (fun o (s : Overflow.St (A.denote sys).St) p => o s.a p) = some o := ho
    cases hA : (A.denote sys).owns with
    | none => rw [hA] at ho; cases ho
    | some o' => rw [hA] at ho; cases ho; exact C06_null_allocator_owns_null sys A h o' hA s.a
  | .threaded A, h, o, ho, s => C06_null_allocator_owns_null sys A h o ho s
  | .reference A, h, o, ho, s => C06_null_allocator_owns_null sys A h o ho s
  | .shared A, h, o, ho, s => by
    replace ho : (A.denote sys).owns.map (fun o (s : Nat × (A.denote sys).St) p => o s.2 p) = some o := ho
    cases hA : (A.denote sys).owns with
    | none => rw [hA] at ho; cases ho
    | some o' => rw [hA] at ho; cases ho; exact C06_null_allocator_owns_null sys A h o' hA s.2
  | .fallback P F, h, o, ho, s => by
    replace ho : owns2 (P.denote sys) (F.denote sys) = some o := ho
    unfold owns2 at ho
    cases hP : (P.denote sys).owns with
    | none => rw [hP] at ho; cases ho
    | some p =>
      cases hF : (F.denote sys).owns with
      | none => rw [hP, hF] at ho; cases ho
      | some f =>
        rw [hP, hF] at ho; cases ho
        simp only [AllocTy.saysNull, Bool.or_eq_true] at h ⊢
        exact h.imp (fun h => C06_null_allocator_owns_null sys P h p hP _) fun h => C06_null_allocator_owns_null sys F h f hF _
  | .segragator T P F, h, o, ho, s => by
    replace ho : owns2 (P.denote sys) (F.denote sys) = some o := ho
    unfold owns2 at ho
    cases hP : (P.denote sys).owns with
    | none => rw [hP] at ho; cases ho
    | some p =>
      cases hF : (F.denote sys).owns with
      | none => rw [hP, hF] at ho; cases ho
      | some f =>
        rw [hP, hF] at ho; cases ho
        simp only [AllocTy.saysNull, Bool.or_eq_true] at h ⊢
        exact h.imp (fun h => C06_null_allocator_owns_null sys P h p hP _) fun h => C06_null_allocator_owns_null sys F h f hF _

example : AllocTy.saysNull (.overflow (.fallback (.linear 256) .null)) = true ∧ (AllocTy.overflow (.fallback (.linear 256) .null)).hasOwns = true ∧
    AllocTy.ownsNull (.freelist 0 64 (.cascading (.linear 256))) = false ∧ (AllocTy.freelist 0 64 (.cascading (.linear 256))).hasOwns = true :=
  ⟨rfl, rfl, rfl, rfl⟩

/-! ### Non-vacuity -/

def nullTy : AllocTy := .overflow (.fallback (.segragator 64 (.freelist 0 64 (.linear 128)) (.cascading (.linear 256))) .mallocator)

/-- a fallback over a linear allocator is covered: null is passed on to malloc's side -/
example : AllocTy.ignoresNull (.fallback (.linear 256) .mallocator) = true := rfl

example : nullTy.WF ∧ nullTy.ignoresNull = true := by decide

def nullOps : List NOp := [.op (.allocate 40), .freeNull 40, .op (.allocate 300), .freeNull 7, .freeNull 300, .op (.write 1 3 9), .op (.deallocate 0)]

example : Sane nullTy (withoutNull nullOps) := by
  intro n hm
  simp only [nullOps, withoutNull, List.mem_cons, Op.allocate.injEq, reduceCtorEq, List.not_mem_nil, or_false] at hm
  have e : nullTy.margin = 64 + (128 + 15) + (256 + 15) + 16 + 128 := rfl
  rw [e]
  omega

end KTL
