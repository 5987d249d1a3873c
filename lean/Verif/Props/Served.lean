import Verif.Base.Post
import Verif.Spec.Demo
import Verif.Props.Memory
import Verif.Props.Linear

/- C63: requests are refused only for want of memory. -/
namespace KTL

/-! ### Specification -/

/-- A new object of this type serves a first request of `n` bytes (unless `malloc` fails). -/
def AllocTy.freshServes : AllocTy → Nat → Prop
  | null, _ => False
  | mallocator, _ => True
  | linear S, n => ∃ k, n ≤ 16 * k ∧ 16 * k ≤ S
  | stack S, n => ∃ k, n ≤ 16 * k ∧ 16 * k ≤ S
  | freelist m M A, n => m < n ∧ n ≤ M ∧ A.freshServes M
  | fallback P F, n => P.freshServes n ∨ F.freshServes n
  | segragator T P F, n => if n ≤ T then P.freshServes n else F.freshServes n
  | cascading A, n => A.freshServes n
  | overflow A, n => A.freshServes (n + 128)
  | threaded A, n => A.freshServes n
  | shared A, n => A.freshServes n
  | reference A, n => A.freshServes n

/-- An object of this type serves every request of `n` bytes, whatever happened before (unless `malloc` fails): memory comes from `malloc`
in the end, or a `cascading` can add an instance that serves it. -/
def AllocTy.serves : AllocTy → Nat → Prop
  | null, _ => False
  | mallocator, _ => True
  | linear _, _ => False
  | stack _, _ => False
  | freelist m M A, n => m < n ∧ n ≤ M ∧ A.serves M
  | fallback P F, n => P.serves n ∨ F.serves n
  | segragator T P F, n => if n ≤ T then P.serves n else F.serves n
  | cascading A, n => A.freshServes n
  | overflow A, n => A.serves (n + 128)
  | threaded A, n => A.serves n
  | shared A, n => A.serves n
  | reference A, n => A.serves n

/-! ### Proof -/

/-- the failure flag is never reset -/
def Sticky {α} (c : M α) : Prop := ∀ w a w', c w = .ok a w' → w.failed = true → w'.failed = true

theorem Sticky.pure {α} (a : α) : Sticky (Pure.pure a : M α) := by intro w b w' h hf; cases h; exact hf
theorem Sticky.ub {α} : Sticky (M.ub : M α) := by intro w b w' h; cases h
theorem Sticky.nullDeref {α} : Sticky (M.nullDeref : M α) := by
  intro w b w' h
  unfold M.nullDeref at h
  split at h <;> cases h
theorem Sticky.bind {α β} {c : M α} {f : α → M β} (h : Sticky c) (hf : ∀ a, Sticky (f a)) : Sticky (c >>= f) := by
  intro w b w' e hw
  obtain ⟨a, w1, e1, e2⟩ := bind_ok e
  exact hf a w1 b w' e2 (h w a w1 e1 hw)
theorem Sticky.ite {α} {p : Prop} [Decidable p] {c d : M α} (h1 : Sticky c) (h2 : Sticky d) : Sticky (if p then c else d) := by
  split <;> assumption
theorem Sticky.cMalloc (sys : Sys) (n : Nat) : Sticky (cMalloc sys n) := by
  intro w a w' h hw
  unfold KTL.cMalloc at h
  split at h <;> cases h
  · rfl
  · exact hw

/-- commands that only change the heap -/
theorem Sticky.load (p : Nat) : Sticky (M.load p) := by
  intro w a w' h hw
  unfold M.load at h
  split at h <;> cases h
  exact hw
theorem Sticky.store (p : Nat) (v : UInt8) : Sticky (M.store p v) := by
  intro w a w' h hw
  unfold M.store at h
  split at h <;> cases h
  exact hw
theorem Sticky.readBytes (p n : Nat) : Sticky (M.readBytes p n) := by
  induction n generalizing p with
  | zero => exact Sticky.pure _
  | succ n ih => exact Sticky.bind (Sticky.load _) fun _ => Sticky.bind (ih _) fun _ => Sticky.pure _
theorem Sticky.writeBytes (p : Nat) (bs : List UInt8) : Sticky (M.writeBytes p bs) := by
  induction bs generalizing p with
  | nil => exact Sticky.pure _
  | cons b bs ih => exact Sticky.bind (Sticky.store _ _) fun _ => ih _
theorem Sticky.readPtr (p : Nat) : Sticky (M.readPtr p) := Sticky.bind (Sticky.readBytes _ _) fun _ => Sticky.pure _
theorem Sticky.writePtr (p v : Nat) : Sticky (M.writePtr p v) := Sticky.writeBytes _ _

theorem Sticky.alignedMalloc (sys : Sys) (n : Nat) : Sticky (alignedMalloc sys n) := by
  unfold KTL.alignedMalloc
  cases sys.plat with
  | direct => exact Sticky.cMalloc _ _
  | manual => exact Sticky.bind (Sticky.cMalloc _ _) fun _ => Sticky.ite (Sticky.bind (Sticky.writePtr _ _) fun _ => Sticky.pure _) (Sticky.pure _)

theorem Sticky.alignedNew {α} (sys : Sys) (n : Nat) {ctor : Nat → M α} (h : ∀ p, Sticky (ctor p)) : Sticky (alignedNew sys n ctor) :=
  Sticky.bind (Sticky.alignedMalloc _ _) fun _ => Sticky.ite Sticky.nullDeref (Sticky.bind (h _) fun _ => Sticky.pure _)

theorem Sticky.allocFront (sys : Sys) (A : Allocator) (hi : ∀ b, Sticky (A.init b)) (ha : ∀ s n, Sticky (A.alloc s n)) (nd : Cascading.Node A.St)
    (rest : List (Cascading.Node A.St)) (n : Nat) : Sticky (Cascading.allocFront sys A nd rest n) :=
  Sticky.bind (ha _ _) fun _ => Sticky.ite (Sticky.bind (Sticky.bind (Sticky.alignedNew _ _ hi) fun _ => Sticky.pure _) fun _ =>
    Sticky.bind (ha _ _) fun _ => Sticky.pure _) (Sticky.pure _)

theorem sticky_alloc (sys : Sys) (t : AllocTy) :
    (∀ b, Sticky ((t.denote sys).init b)) ∧ ∀ (s : (t.denote sys).St) n, Sticky ((t.denote sys).alloc s n) := by
  induction t with
  | null => exact ⟨fun _ => Sticky.pure _, fun _ _ => Sticky.pure _⟩
  | mallocator => exact ⟨fun _ => Sticky.pure _, fun _ _ => Sticky.bind (Sticky.alignedMalloc _ _) fun _ => Sticky.pure _⟩
  | linear S => exact ⟨fun _ => Sticky.pure _, fun _ _ => Sticky.pure _⟩
  | stack S => exact ⟨fun _ => Sticky.pure _, fun _ _ => Sticky.pure _⟩
  | freelist m M A ih =>
    exact ⟨fun _ => Sticky.bind (ih.1 _) fun _ => Sticky.pure _, fun _ _ => Sticky.ite (Sticky.ite (Sticky.bind (Sticky.readPtr _) fun _ => Sticky.pure _)
      (Sticky.bind (ih.2 _ _) fun _ => Sticky.pure _)) (Sticky.pure _)⟩
  | fallback P F ihP ihF =>
    exact ⟨fun _ => Sticky.bind (ihP.1 _) fun _ => Sticky.bind (ihF.1 _) fun _ => Sticky.pure _, fun _ _ => Sticky.bind (ihP.2 _ _) fun _ =>
      Sticky.ite (Sticky.bind (ihF.2 _ _) fun _ => Sticky.pure _) (Sticky.pure _)⟩
  | segragator T P F ihP ihF =>
    exact ⟨fun _ => Sticky.bind (ihP.1 _) fun _ => Sticky.bind (ihF.1 _) fun _ => Sticky.pure _, fun _ _ =>
      Sticky.ite (Sticky.bind (ihP.2 _ _) fun _ => Sticky.pure _) (Sticky.bind (ihF.2 _ _) fun _ => Sticky.pure _)⟩
  | cascading A ih =>
    refine ⟨fun _ => Sticky.pure _, fun s n => ?_⟩
    refine Sticky.bind (f := _) ?_ fun s' => ?_
    · cases s with
      | nil => exact Sticky.bind (Sticky.bind (Sticky.alignedNew _ _ ih.1) fun _ => Sticky.pure _) fun _ => Sticky.pure _
      | cons => exact Sticky.pure _
    · cases s' with
      | nil => exact Sticky.ub
      | cons nd rest =>
        dsimp only
        cases (A.denote sys).maxSize with
        | none => exact Sticky.allocFront _ _ ih.1 ih.2 _ _ _
        | some f =>
          dsimp only
          cases f nd.st with
          | none => exact Sticky.ub
          | some m => exact Sticky.ite (Sticky.pure _) (Sticky.allocFront _ _ ih.1 ih.2 _ _ _)
  | overflow A ih =>
    exact ⟨fun _ => Sticky.bind (ih.1 _) fun _ => Sticky.pure _, fun _ _ => Sticky.bind (ih.2 _ _) fun _ => Sticky.ite (Sticky.pure _)
      (Sticky.bind (Sticky.writeBytes _ _) fun _ => Sticky.bind (Sticky.writeBytes _ _) fun _ => Sticky.pure _)⟩
  | threaded A ih => exact ih
  | shared A ih => exact ⟨fun _ => Sticky.alignedNew _ _ ih.1, fun _ _ => Sticky.bind (ih.2 _ _) fun _ => Sticky.pure _⟩
  | reference A ih => exact ih

/-- Null only after a failed `malloc`. -/
def NoRefusal {α} (c : M (Nat × α)) : Prop := ∀ w r w', c w = .ok r w' → r.1 = 0 → w'.failed = true

theorem noRefusal_alignedMalloc (sys : Sys) (n : Nat) (hn : n + 16 < W64) (w : World) (p : Nat) (w' : World) (h : alignedMalloc sys n w = .ok p w') (hp : p = 0) :
    w'.failed = true := by
  have base : ∀ n w p w', cMalloc sys n w = .ok p w' → (p = 0 → w'.failed = true) ∧ (p ≠ 0 → p + n < W64) := by
    intro n w p w' h
    unfold cMalloc at h
    split at h <;> cases h
    · exact ⟨fun _ => rfl, fun h => (h rfl).elim⟩
    · rename_i hm
      have := sys.valid _ _ _ _ _ hm
      exact ⟨fun h => by omega, fun _ => this.2.2.1⟩
  unfold alignedMalloc at h
  cases hpl : sys.plat with
  | direct => rw [hpl] at h; exact (base _ _ _ _ h).1 hp
  | manual =>
    rw [hpl] at h
    obtain ⟨ptr, w1, e1, e2⟩ := bind_ok h
    obtain ⟨b1, b2⟩ := base _ _ _ _ e1
    by_cases hz : ptr = 0
    · rw [if_neg (by simp [hz])] at e2
      cases e2
      exact b1 hz
    · rw [if_pos hz] at e2
      obtain ⟨_, w2, _, e4⟩ := bind_ok e2
      cases e4
      have e5 : addW n 16 = n + 16 := by unfold addW; omega
      have := b2 hz
      rw [e5] at this
      unfold addW at hp
      omega

theorem fresh_max (sys : Sys) (t : AllocTy) (n : Nat) (hn : n + t.margin < W64) (h : t.freshServes n) (f : (t.denote sys).St → Option Nat)
    (hf : (t.denote sys).maxSize = some f) (s : (t.denote sys).St) (m : Nat) (hm : f s = some m) : n ≤ m := by
  induction t generalizing n m with
  | null => exact h.elim
  | mallocator => cases hf
  | linear S =>
    obtain ⟨k, _, _⟩ := h
    cases hf; cases hm; omega
  | stack S =>
    obtain ⟨k, _, _⟩ := h
    cases hf; cases hm; omega
  | freelist a M A ih =>
    obtain ⟨g, hg, rfl⟩ := Option.map_eq_some_iff.1 hf
    simp only [AllocTy.margin] at hn
    exact Nat.le_trans h.2.1 (ih M (by omega) h.2.2 g hg _ m hm)
  | fallback P F ihP ihF =>
    simp only [AllocTy.margin] at hn
    change maxSize2 _ _ = _ at hf
    unfold maxSize2 at hf
    split at hf
    · rename_i g k hg hk
      cases hf
      dsimp only at hm
      split at hm
      · rename_i a b ha hb
        cases hm
        rcases h with h | h
        · have := ihP n (by omega) h g hg _ a ha; omega
        · have := ihF n (by omega) h k hk _ b hb; omega
      · cases hm
    · cases hf
  | segragator T P F ihP ihF =>
    simp only [AllocTy.margin] at hn
    change maxSize2 _ _ = _ at hf
    unfold maxSize2 at hf
    split at hf
    · rename_i g k hg hk
      cases hf
      dsimp only at hm
      split at hm
      · rename_i a b ha hb
        cases hm
        simp only [AllocTy.freshServes] at h
        split at h
        · have := ihP n (by omega) h g hg _ a ha; omega
        · have := ihF n (by omega) h k hk _ b hb; omega
      · cases hm
    · cases hf
  | cascading A ih =>
    obtain ⟨g, hg, rfl⟩ := Option.map_eq_some_iff.1 hf
    cases s with
    | nil => cases hm
    | cons nd rest => exact ih n hn h g hg nd.st m hm
  | overflow A ih =>
    obtain ⟨g, hg, rfl⟩ := Option.map_eq_some_iff.1 hf
    simp only [AllocTy.margin] at hn
    have := ih (n + 128) (by omega) h g hg _ m hm
    omega
  | threaded A ih => exact ih n hn h f hf s m hm
  | shared A ih =>
    obtain ⟨g, hg, rfl⟩ := Option.map_eq_some_iff.1 hf
    exact ih n hn h g hg _ m hm
  | reference A ih => exact ih n hn h f hf s m hm

theorem linear_fresh (S n b : Nat) (hb : b ≠ 0) (hn : n + (S + 15) < W64) (h : ∃ k, n ≤ 16 * k ∧ 16 * k ≤ S) : (Linear.alloc S (Linear.init b) n).1 ≠ 0 := by
  obtain ⟨k, h1, h2⟩ := h
  have e1 : addW n (alignPad n) = n + (16 - n % 16) % 16 := by rw [alignPad_eq]; unfold addW; omega
  have e2 : addW (subW b b) (n + (16 - n % 16) % 16) = n + (16 - n % 16) % 16 := by unfold addW subW; omega
  unfold Linear.alloc Linear.init
  simp only [e1]
  rw [if_neg (by rw [e2]; omega)]
  exact hb

/-- `cascading` with a front instance -/
theorem noRefusal_front (sys : Sys) (A : AllocTy) (n : Nat)
    (hfresh : ∀ b, b ≠ 0 → ∀ w s w', (A.denote sys).init b w = .ok s w' → NoRefusal ((A.denote sys).alloc s n))
    (nd : Cascading.Node (A.denote sys).St) (rest : List (Cascading.Node (A.denote sys).St)) : NoRefusal (Cascading.allocFront sys (A.denote sys) nd rest n) := by
  intro w r w' h hr
  obtain ⟨q, w1, e1, e2⟩ := bind_ok h
  by_cases hq : q.1 = 0
  · rw [if_pos hq] at e2
    obtain ⟨nd2, w2, e3, e4⟩ := bind_ok e2
    obtain ⟨x, w3, e5, e6⟩ := bind_ok e3
    cases e6
    obtain ⟨p, w4, e7, e8⟩ := bind_ok e5
    by_cases hp : p = 0
    · rw [if_pos hp] at e8
      unfold M.nullDeref at e8
      split at e8 <;> cases e8
    · rw [if_neg hp] at e8
      obtain ⟨s, w5, e9, e10⟩ := bind_ok e8
      cases e10
      obtain ⟨y, w6, e11, e12⟩ := bind_ok e4
      cases e12
      exact hfresh p hp w4 s _ e9 _ _ _ e11 hr
  · rw [if_neg hq] at e2
    cases e2
    exact (hq hr).elim

theorem serves_spec (sys : Sys) (t : AllocTy) (hwf : t.WF) : ∀ n, n + t.margin < W64 →
    (t.freshServes n → ∀ b, b ≠ 0 → ∀ w s w', (t.denote sys).init b w = .ok s w' → NoRefusal ((t.denote sys).alloc s n)) ∧
    (t.serves n → ∀ s, NoRefusal ((t.denote sys).alloc s n)) := by
  induction t with
  | null => exact fun n hn => ⟨fun h => h.elim, fun h => h.elim⟩
  | mallocator =>
    have key : ∀ n, n + 16 < W64 → ∀ s, NoRefusal ((mallocator sys).alloc s n) := by
      intro n hn s w r w' h hr
      obtain ⟨p, w1, e1, e2⟩ := bind_ok h
      cases e2
      exact noRefusal_alignedMalloc sys n hn w p _ e1 hr
    exact fun n hn => ⟨fun _ _ _ _ s _ _ => key n hn s, fun _ s => key n hn s⟩
  | linear S =>
    refine fun n hn => ⟨fun h b hb w s w' hi w1 r w2 ha hr => ?_, fun h => h.elim⟩
    cases hi; cases ha
    exact (linear_fresh S n b hb hn h hr).elim
  | stack S =>
    refine fun n hn => ⟨fun h b hb w s w' hi w1 r w2 ha hr => ?_, fun h => h.elim⟩
    cases hi; cases ha
    have : (Stack.alloc S (Stack.init b) n).1 = (Linear.alloc S (Linear.init b) n).1 := by
      have := Stack.lin_alloc S (Stack.init b) n
      rw [Stack.lin_init] at this
      exact (congrArg Prod.fst this).symm
    exact (linear_fresh S n b hb hn h (by rw [← this]; exact hr)).elim
  | freelist m M A ih =>
    intro n hn
    simp only [AllocTy.margin] at hn
    obtain ⟨i1, i2⟩ := ih hwf.1 M (by omega)
    have key : ∀ s : Freelist.St (A.denote sys).St, m < n → n ≤ M → NoRefusal ((A.denote sys).alloc s.a M) → NoRefusal ((freelist m M (A.denote sys)).alloc s n) := by
      intro s h1 h2 hA w r w' h hr
      change (if n > m ∧ n ≤ M then _ else _ : KTL.M _) w = _ at h
      rw [if_pos ⟨h1, h2⟩] at h
      split at h
      · rename_i hz
        obtain ⟨x, w1, _, e2⟩ := bind_ok h
        cases e2
        exact (hz hr).elim
      · obtain ⟨x, w1, e1, e2⟩ := bind_ok h
        cases e2
        exact hA _ _ _ e1 hr
    refine ⟨fun h b hb w s w' hi => ?_, fun h s => key s h.1 h.2.1 (i2 h.2.2 _)⟩
    obtain ⟨x, w1, e1, e2⟩ := bind_ok hi
    cases e2
    exact key _ h.1 h.2.1 (i1 h.2.2 b hb w x _ e1)
  | fallback P F ihP ihF =>
    intro n hn
    simp only [AllocTy.margin] at hn
    obtain ⟨p1, p2⟩ := ihP hwf.1 n (by omega)
    obtain ⟨f1, f2⟩ := ihF hwf.2.1 n (by omega)
    have key : ∀ (s : (P.denote sys).St) (u : (F.denote sys).St), NoRefusal ((P.denote sys).alloc s n) ∨ NoRefusal ((F.denote sys).alloc u n) →
        NoRefusal ((fallback (P.denote sys) (F.denote sys)).alloc (s, u) n) := by
      intro s u hPF w r w' h hr
      obtain ⟨x, w1, e1, e2⟩ := bind_ok h
      by_cases hx : x.1 = 0
      · rw [if_pos hx] at e2
        obtain ⟨y, w2, e3, e4⟩ := bind_ok e2
        cases e4
        rcases hPF with hP | hF
        · exact (sticky_alloc sys F).2 _ _ _ _ _ e3 (hP _ _ _ e1 hx)
        · exact hF _ _ _ e3 hr
      · rw [if_neg hx] at e2
        cases e2
        exact (hx hr).elim
    refine ⟨fun h b hb w s w' hi => ?_, fun h s => key s.1 s.2 (h.imp (fun h => p2 h _) (fun h => f2 h _))⟩
    obtain ⟨x, w1, e1, e2⟩ := bind_ok hi
    obtain ⟨y, w2, e3, e4⟩ := bind_ok e2
    cases e4
    exact key x y (h.imp (fun h => p1 h b hb w x w1 e1) (fun h => f1 h (b + (P.denote sys).objSize) (by omega) w1 y _ e3))
  | segragator T P F ihP ihF =>
    intro n hn
    simp only [AllocTy.margin] at hn
    obtain ⟨p1, p2⟩ := ihP hwf.1 n (by omega)
    obtain ⟨f1, f2⟩ := ihF hwf.2 n (by omega)
    have key : ∀ (s : (P.denote sys).St) (u : (F.denote sys).St), (if n ≤ T then NoRefusal ((P.denote sys).alloc s n) else NoRefusal ((F.denote sys).alloc u n)) →
        NoRefusal ((segragator T (P.denote sys) (F.denote sys)).alloc (s, u) n) := by
      intro s u hPF w r w' h hr
      change (if n ≤ T then _ else _ : M _) w = _ at h
      split at h
      · rename_i hT
        rw [if_pos hT] at hPF
        obtain ⟨x, w1, e1, e2⟩ := bind_ok h
        cases e2
        exact hPF _ _ _ e1 hr
      · rename_i hT
        rw [if_neg hT] at hPF
        obtain ⟨x, w1, e1, e2⟩ := bind_ok h
        cases e2
        exact hPF _ _ _ e1 hr
    refine ⟨fun h b hb w s w' hi => ?_, fun h s => key s.1 s.2 ?_⟩
    · obtain ⟨x, w1, e1, e2⟩ := bind_ok hi
      obtain ⟨y, w2, e3, e4⟩ := bind_ok e2
      cases e4
      refine key x y ?_
      simp only [AllocTy.freshServes] at h
      split
      · rename_i hT
        rw [if_pos hT] at h
        exact p1 h b hb w x w1 e1
      · rename_i hT
        rw [if_neg hT] at h
        exact f1 h (b + (P.denote sys).objSize) (by omega) w1 y _ e3
    · simp only [AllocTy.serves] at h
      split
      · rename_i hT
        rw [if_pos hT] at h
        exact p2 h _
      · rename_i hT
        rw [if_neg hT] at h
        exact f2 h _
  | cascading A ih =>
    intro n hn
    obtain ⟨i1, _⟩ := ih hwf.1 n hn
    have key : A.freshServes n → ∀ s, NoRefusal ((cascading sys (A.denote sys)).alloc s n) := by
      intro hA s w r w' h hr
      have hfront := noRefusal_front sys A n (i1 hA)
      obtain ⟨s', w1, e1, e2⟩ := bind_ok h
      cases s' with
      | nil => cases e2
      | cons nd rest =>
        dsimp only at e2
        cases hmax : (A.denote sys).maxSize with
        | none => rw [hmax] at e2; exact hfront nd rest _ _ _ e2 hr
        | some f =>
          rw [hmax] at e2
          dsimp only at e2
          cases hf : f nd.st with
          | none => rw [hf] at e2; cases e2
          | some m =>
            rw [hf] at e2
            have := fresh_max sys A n hn hA f hmax nd.st m hf
            dsimp only at e2
            rw [if_neg (by omega)] at e2
            exact hfront nd rest _ _ _ e2 hr
    exact ⟨fun h b hb w s w' hi => key h s, fun h s => key h s⟩
  | overflow A ih =>
    intro n hn
    simp only [AllocTy.margin] at hn
    obtain ⟨i1, i2⟩ := ih hwf (n + 128) (by omega)
    have key : ∀ s : Overflow.St (A.denote sys).St, NoRefusal ((A.denote sys).alloc s.a (n + 128)) → NoRefusal ((overflow (A.denote sys)).alloc s n) := by
      intro s hA w r w' h hr
      have e0 : addW n 128 = n + 128 := by unfold addW; omega
      obtain ⟨x, w1, e1, e2⟩ := bind_ok h
      rw [e0] at e1
      by_cases hx : x.1 = 0
      · rw [if_pos hx] at e2
        cases e2
        exact hA _ _ _ e1 hx
      · rw [if_neg hx] at e2
        obtain ⟨_, w2, _, e3⟩ := bind_ok e2
        obtain ⟨_, w3, _, e4⟩ := bind_ok e3
        cases e4
        have : x.1 + 64 = 0 := hr
        omega
    refine ⟨fun h b hb w s w' hi => ?_, fun h s => key s (i2 h _)⟩
    obtain ⟨x, w1, e1, e2⟩ := bind_ok hi
    cases e2
    exact key _ (i1 h b hb w x _ e1)
  | threaded A ih => exact ih hwf
  | shared A ih =>
    intro n hn
    obtain ⟨i1, i2⟩ := ih hwf.1 n hn
    have key : ∀ s : Nat × (A.denote sys).St, NoRefusal ((A.denote sys).alloc s.2 n) → NoRefusal ((sharedAlloc sys (A.denote sys)).alloc s n) := by
      intro s hA w r w' h hr
      obtain ⟨x, w1, e1, e2⟩ := bind_ok h
      cases e2
      exact hA _ _ _ e1 hr
    refine ⟨fun h b hb w s w' hi => ?_, fun h s => key s (i2 h _)⟩
    obtain ⟨p, w1, e1, e2⟩ := bind_ok hi
    by_cases hp : p = 0
    · rw [if_pos hp] at e2
      unfold M.nullDeref at e2
      split at e2 <;> cases e2
    · rw [if_neg hp] at e2
      obtain ⟨x, w2, e3, e4⟩ := bind_ok e2
      cases e4
      exact key _ (i1 h p hp w1 x _ e3)
  | reference A ih => exact ih hwf

/-! ### Theorems -/

/-- **C63.** After any history, an `allocate(n)` that the type promises to serve (`AllocTy.serves`: in the end the memory comes from `malloc`, directly
or because a `cascading` can add an instance) gives a new block of `n` bytes, unless `malloc` failed at some time. -/
theorem C63_requests_served (sys : Sys) (t : AllocTy) (hwf : t.WF) (b : Nat) (w : World) (hs : Storage w b t.size) (ops : List Op) (hops : Sane t ops)
    (n : Nat) (h0 : 0 < n) (hn : n + t.margin < W64) (hserve : t.serves n) :
    match (do let c ← play sys (t.denote sys) b ops; let c' ← c.step sys (.allocate n); pure (c, c')) w with
    | .ok (c, c') w' => w'.failed = true ∨ ∃ p bs, p ≠ 0 ∧ bs.length = n ∧ c'.live = (p, bs) :: c.live
    | .oom w' => w'.failed = true
    | .ub => False := by
  have hsafe := C01_no_undefined_behaviour sys t hwf b w hs (ops ++ [.allocate n]) (by
    intro k hk
    rcases List.mem_append.1 hk with hk | hk
    · exact hops k hk
    · simp only [List.mem_singleton, Op.allocate.injEq] at hk
      subst hk
      exact ⟨by omega, h0, hn⟩)
  rw [play_append] at hsafe
  cases hp : play sys (t.denote sys) b ops w with
  | ub => rw [M.bind_apply, hp] at hsafe; exact hsafe.elim
  | oom w1 =>
    rw [M.bind_apply, hp] at hsafe
    rw [M.bind_apply, hp]
    exact hsafe
  | ok c w1 =>
    rw [bind_of_ok hp] at hsafe
    rw [bind_of_ok hp]
    simp only [Client.run] at hsafe
    cases hc : c.step sys (.allocate n) w1 with
    | ub => rw [M.bind_apply, hc] at hsafe; exact hsafe.elim
    | oom w2 =>
      rw [M.bind_apply, hc] at hsafe
      rw [M.bind_apply, hc]
      exact hsafe
    | ok c' w2 =>
      rw [bind_of_ok hc]
      show w2.failed = true ∨ _
      simp only [Client.step] at hc
      obtain ⟨r, w3, e1, e2⟩ := bind_ok hc
      have key := (serves_spec sys t hwf n hn).2 hserve c.st w1 r w3 e1
      by_cases hr : r.1 = 0
      · rw [if_pos hr] at e2
        cases e2
        exact .inl (key hr)
      · rw [if_neg hr] at e2
        obtain ⟨bs, w4, e3, e4⟩ := bind_ok e2
        cases e4
        exact .inr ⟨r.1, bs, hr, Linear.readBytes_length _ _ _ _ _ e3, rfl⟩

/-- **C63, new objects.** The first request to a new object is served if the type promises so (`AllocTy.freshServes`: it fits into the first memory that
is responsible for it), unless `malloc` failed. -/
theorem C63_first_request_served (sys : Sys) (t : AllocTy) (hwf : t.WF) (b : Nat) (w : World) (hs : Storage w b t.size)
    (n : Nat) (hn : n + t.margin < W64) (hserve : t.freshServes n) (s : (t.denote sys).St) (w1 : World) (hi : (t.denote sys).init b w = .ok s w1)
    (p : Nat) (s' : (t.denote sys).St) (w2 : World) (ha : (t.denote sys).alloc s n w1 = .ok (p, s') w2) : p ≠ 0 ∨ w2.failed = true := by
  by_cases hp : p = 0
  · exact .inr ((serves_spec sys t hwf n hn).1 hserve b hs.1 w s w1 hi w1 (p, s') w2 ha hp)
  · exact .inl hp

/-- **C63, `freelist`.** While no freed block waits for reuse, a request in range is answered exactly as the underlying allocator answers a request for `Max`
bytes. (While one waits, it is handed out: C11.) -/
theorem C63_freelist_asks_inner (Min Max : Nat) (A : Allocator) (a : A.St) (n : Nat) (hn : Min < n ∧ n ≤ Max) (w : World) (p : Nat) (a' : A.St) (w' : World)
    (h : A.alloc a Max w = .ok (p, a') w') : (freelist Min Max A).alloc ⟨a, 0⟩ n w = .ok (p, ⟨a', 0⟩) w' := by
  change (if n > Min ∧ n ≤ Max then _ else _ : M _) w = _
  rw [if_pos ⟨hn.1, hn.2⟩]
  show (if (0 : Nat) ≠ 0 then _ else _ : M _) w = _
  rw [if_neg (by simp)]
  exact bind_of_ok h

theorem overflow_refuses (A : Allocator) (s : Overflow.St A.St) (n : Nat) (w : World) (a' : A.St) (w1 : World)
    (h : A.alloc s.a (addW n 128) w = .ok (0, a') w1) :
    (overflow A).alloc s n w = .ok (0, ⟨a', Overflow.wrap64 (s.allocs + n), s.constructs⟩) w1 := by
  refine (bind_of_ok h).trans ?_
  rw [if_pos rfl]
  rfl

/-- **C19 is false for `overflow`**, for every size: `max_size()` of a new `overflow<linear_allocator<Size>>` is `Size`, but each request of more than `Size - 128`
bytes is refused, because the guard bytes have to fit as well. -/
theorem C19_overflow_refused (Size : Nat) (hS : Size + 256 < W64) (b : Nat) (hb : b < W64) (w : World) :
    ∃ s0, (overflow (linear Size)).init b w = .ok s0 w ∧
      (∀ f, (overflow (linear Size)).maxSize = some f → f s0 = some Size) ∧
      ∀ n, Size < n + 128 → n ≤ Size → ((overflow (linear Size)).alloc s0 n w).test (fun r _ => decide (r.1 = 0)) = true := by
  refine ⟨⟨Linear.init b, 0, 0⟩, rfl, ?_, fun n h1 h2 => ?_⟩
  · intro f hf
    cases hf
    rfl
  · have e0 : addW n 128 = n + 128 := by unfold addW; omega
    have e1 : Linear.alloc Size (Linear.init b) (n + 128) = (0, Linear.init b) := by
      have hp : alignPad (n + 128) < 16 := by rw [alignPad_eq]; omega
      have e2 : subW (Linear.init b).free (Linear.init b).base = 0 := by
        show subW b b = 0
        unfold subW
        rw [Nat.mod_eq_of_lt hb, show b + (W64 - b) = W64 by omega]
      have e3 : addW (n + 128) (alignPad (n + 128)) = n + 128 + alignPad (n + 128) := by unfold addW; omega
      have e4 : addW 0 (n + 128 + alignPad (n + 128)) = n + 128 + alignPad (n + 128) := by unfold addW; omega
      unfold Linear.alloc
      simp only [e2, e3, e4]
      rw [if_pos (by omega)]
    have e5 := overflow_refuses (linear Size) ⟨Linear.init b, 0, 0⟩ n w (Linear.init b) w (by
      rw [e0]
      show Res.ok (Linear.alloc Size (Linear.init b) (n + 128)) w = _
      rw [e1]
      rfl)
    exact (congrArg (Res.test · _) e5).trans rfl

/-- **C63, `overflow`.** A request is refused exactly if the underlying allocator refuses the widened one. -/
theorem C63_overflow_refuses_iff (A : Allocator) (s : Overflow.St A.St) (n : Nat) (hn : n + 128 < W64) (w : World) (p : Nat) (s' : Overflow.St A.St) (w' : World)
    (h : (overflow A).alloc s n w = .ok (p, s') w') : p = 0 ↔ ∃ a' w1, A.alloc s.a (n + 128) w = .ok (0, a') w1 := by
  have e0 : addW n 128 = n + 128 := by unfold addW; omega
  obtain ⟨x, w1, e1, e2⟩ := bind_ok h
  rw [e0] at e1
  by_cases hx : x.1 = 0
  · rw [if_pos hx] at e2
    cases e2
    exact ⟨fun _ => ⟨x.2, _, by rw [e1, ← hx]⟩, fun _ => rfl⟩
  · rw [if_neg hx] at e2
    obtain ⟨_, w2, _, e3⟩ := bind_ok e2
    obtain ⟨_, w3, _, e4⟩ := bind_ok e3
    cases e4
    refine ⟨fun h => by omega, fun ⟨a', w4, e⟩ => ?_⟩
    rw [e1] at e
    cases e
    exact (hx rfl).elim

/-! ### Examples -/

example : (AllocTy.overflow (.fallback (.linear 64) (.cascading (.freelist 0 512 (.linear 1024))))).serves 100 :=
  .inr ⟨by decide, by decide, 32, by decide, by decide⟩
example : ¬ (AllocTy.fallback (.linear 64) (.cascading (.linear 128))).serves 129 := by
  rintro (h | ⟨k, h1, h2⟩)
  · exact h
  · omega

end KTL
