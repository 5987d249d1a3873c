import Verif.Props.Cascading
import Verif.Props.Served

/- C16 for every underlying allocator, and more of C63: what a new object refuses is never served, an emptied object is as good as new. -/
namespace KTL
open Cascading

/-! ### Specification -/

/-- The `max_size()` of an object of this type, if the type has one. -/
def AllocTy.maxOf : AllocTy → Option Nat
  | null => none
  | mallocator => none
  | linear S => some S
  | stack S => some S
  | freelist _ _ A => A.maxOf
  | fallback P F => P.maxOf.bind fun a => F.maxOf.map fun b => max a b
  | segragator _ P F => P.maxOf.bind fun a => F.maxOf.map fun b => max a b
  | cascading A => A.maxOf
  | overflow A => A.maxOf
  | threaded A => A.maxOf
  | shared A => A.maxOf
  | reference A => A.maxOf

/-- A request of `n` bytes that even a new `A` refuses, although `max_size()` does not exclude it. -/
def AllocTy.Hopeless (A : AllocTy) (n : Nat) : Prop := ¬ A.freshServes n ∧ ∀ m, A.maxOf = some m → n ≤ m

instance AllocTy.decFresh : (t : AllocTy) → (n : Nat) → Decidable (t.freshServes n)
  | null, _ => isFalse id
  | mallocator, _ => isTrue trivial
  | linear S, n => decidable_of_iff (n + (16 - n % 16) % 16 ≤ S)
      ⟨fun h => ⟨(n + 15) / 16, by omega, by omega⟩, fun ⟨k, h1, h2⟩ => by omega⟩
  | stack S, n => decidable_of_iff (n + (16 - n % 16) % 16 ≤ S)
      ⟨fun h => ⟨(n + 15) / 16, by omega, by omega⟩, fun ⟨k, h1, h2⟩ => by omega⟩
  | freelist m M A, n => have := decFresh A M; by unfold AllocTy.freshServes; infer_instance
  | fallback P F, n => have := decFresh P n; have := decFresh F n; by unfold AllocTy.freshServes; infer_instance
  | segragator T P F, n => have := decFresh P n; have := decFresh F n; by unfold AllocTy.freshServes; infer_instance
  | cascading A, n => decFresh A n
  | overflow A, n => decFresh A (n + 128)
  | threaded A, n => decFresh A n
  | shared A, n => decFresh A n
  | reference A, n => decFresh A n

instance (A : AllocTy) (n : Nat) : Decidable (A.Hopeless n) :=
  decidable_of_iff (¬ A.freshServes n ∧ (match A.maxOf with | none => true | some m => decide (n ≤ m)) = true) (by
    unfold AllocTy.Hopeless
    cases A.maxOf <;> simp)

/-- the number of hopeless requests in a history -/
def hopeless (A : AllocTy) : List Op → Nat
  | [] => 0
  | .allocate n :: ops => (if A.Hopeless n then 1 else 0) + hopeless A ops
  | _ :: ops => hopeless A ops

/-! ### `max_size` -/

theorem max_some (sys : Sys) (t : AllocTy) (f : (t.denote sys).St → Option Nat) (hf : (t.denote sys).maxSize = some f) :
    ∃ m, t.maxOf = some m ∧ ∀ s k, f s = some k → k = m := by
  induction t with
  | null => cases hf
  | mallocator => cases hf
  | linear S => cases hf; exact ⟨S, rfl, fun s k h => by cases h; rfl⟩
  | stack S => cases hf; exact ⟨S, rfl, fun s k h => by cases h; rfl⟩
  | freelist a M A ih =>
    obtain ⟨g, hg, rfl⟩ := Option.map_eq_some_iff.1 hf
    obtain ⟨m, h1, h2⟩ := ih g hg
    exact ⟨m, h1, fun s k h => h2 s.a k h⟩
  | fallback P F ihP ihF =>
    change maxSize2 _ _ = _ at hf
    unfold maxSize2 at hf
    split at hf
    · rename_i g k hg hk
      cases hf
      obtain ⟨a, h1, h2⟩ := ihP g hg
      obtain ⟨b, h3, h4⟩ := ihF k hk
      refine ⟨max a b, by simp [AllocTy.maxOf, h1, h3], fun s x h => ?_⟩
      dsimp only at h
      split at h
      · rename_i u v hu hv
        cases h
        rw [h2 _ _ hu, h4 _ _ hv]
      · cases h
    · cases hf
  | segragator T P F ihP ihF =>
    change maxSize2 _ _ = _ at hf
    unfold maxSize2 at hf
    split at hf
    · rename_i g k hg hk
      cases hf
      obtain ⟨a, h1, h2⟩ := ihP g hg
      obtain ⟨b, h3, h4⟩ := ihF k hk
      refine ⟨max a b, by simp [AllocTy.maxOf, h1, h3], fun s x h => ?_⟩
      dsimp only at h
      split at h
      · rename_i u v hu hv
        cases h
        rw [h2 _ _ hu, h4 _ _ hv]
      · cases h
    · cases hf
  | cascading A ih =>
    obtain ⟨g, hg, rfl⟩ := Option.map_eq_some_iff.1 hf
    obtain ⟨m, h1, h2⟩ := ih g hg
    refine ⟨m, h1, fun s k h => ?_⟩
    cases s with
    | nil => cases h
    | cons nd rest => exact h2 _ _ h
  | overflow A ih =>
    obtain ⟨g, hg, rfl⟩ := Option.map_eq_some_iff.1 hf
    obtain ⟨m, h1, h2⟩ := ih g hg
    exact ⟨m, h1, fun s k h => h2 s.a k h⟩
  | threaded A ih => exact ih f hf
  | shared A ih =>
    obtain ⟨g, hg, rfl⟩ := Option.map_eq_some_iff.1 hf
    obtain ⟨m, h1, h2⟩ := ih g hg
    exact ⟨m, h1, fun s k h => h2 s.2 k h⟩
  | reference A ih => exact ih f hf

theorem maxOf_isSome (t : AllocTy) : t.maxOf.isSome = t.hasMax := by
  induction t with
  | fallback P F ihP ihF =>
    simp only [AllocTy.maxOf, AllocTy.hasMax, ← ihP, ← ihF]
    cases P.maxOf <;> cases F.maxOf <;> rfl
  | segragator T P F ihP ihF =>
    simp only [AllocTy.maxOf, AllocTy.hasMax, ← ihP, ← ihF]
    cases P.maxOf <;> cases F.maxOf <;> rfl
  | null => rfl
  | mallocator => rfl
  | linear S => rfl
  | stack S => rfl
  | freelist a M A ih => exact ih
  | cascading A ih => exact ih
  | overflow A ih => exact ih
  | threaded A ih => exact ih
  | shared A ih => exact ih
  | reference A ih => exact ih

/-! ### A block that is out shows that a new object serves its size -/

theorem linear_live_fresh {S b p n : Nat} {s : Linear.St} {L : List (Nat × Nat)} (hok : Linear.Ok S b s L) (hm : (p, n) ∈ L) :
    ∃ k, n ≤ 16 * k ∧ 16 * k ≤ S := by
  have h1 := hok.blocks _ hm
  have h2 := hok.free_hi
  by_cases hn : n = 0
  · exact ⟨0, by omega, by omega⟩
  · have h3 := h1.2.2.2 hn
    simp only at h1 h3
    exact ⟨(n + 15) / 16, by omega, by omega⟩

theorem nodes_mem {plat : Plat} {A : Allocator} {fA : Nat → Prop} {hA : Sound A fA}
    {NL : List (Node A.St × List (Nat × Nat))} {h : Heap} (hN : nodesInv plat hA NL h) :
    ∀ x ∈ NL, ∃ h', hA.Inv x.1.addr x.1.st x.2 h' := by
  induction NL generalizing h with
  | nil => intro x hx; cases hx
  | cons y NL ih =>
    obtain ⟨a1, a2, _, rfl, ⟨b1, b2, _, rfl, hI, _⟩, hr⟩ := hN
    intro x hx
    rcases List.mem_cons.1 hx with rfl | hx
    · exact ⟨_, hI⟩
    · exact ih hr x hx

theorem live_fresh (sys : Sys) (t : AllocTy) (hwf : t.WF) (b : Nat) (s : (t.denote sys).St) (L : List (Nat × Nat)) (h : Heap)
    (hI : (t.sound sys hwf).Inv b s L h) (p n : Nat) (hm : (p, n) ∈ L) : t.freshServes n := by
  induction t generalizing b L h p n with
  | null =>
    have : L = [] := hI.1
    rw [this] at hm; cases hm
  | mallocator => trivial
  | linear S => exact linear_live_fresh hI.2.1 hm
  | stack S =>
    have hI' : (linear_sound S).Inv b (Stack.lin s) L h := hI
    exact linear_live_fresh hI'.2.1 hm
  | freelist a M A ih =>
    obtain ⟨h1, R, _, h2, h3, _, rfl, h4, _⟩ := hI
    have h5 := h1 _ hm
    refine ⟨h5.1, h5.2.1, ih hwf.1 b _ _ _ h4 p M ?_⟩
    exact List.mem_append_left _ (List.mem_map.2 ⟨_, hm, rfl⟩)
  | fallback P F ihP ihF =>
    obtain ⟨_, L1, L2, hp, h1, h2, _, rfl, h3, h4⟩ := hI
    rcases List.mem_append.1 (hp.mem_iff.1 hm) with hm | hm
    · exact .inl (ihP hwf.1 _ _ _ _ h3 p n hm)
    · exact .inr (ihF hwf.2.1 _ _ _ _ h4 p n hm)
  | segragator T P F ihP ihF =>
    obtain ⟨_, h1, h2, _, rfl, h3, h4⟩ := hI
    simp only [AllocTy.freshServes]
    split
    · rename_i hT
      exact ihP hwf.1 _ _ _ _ h3 p n (List.mem_filter.2 ⟨hm, by simpa using hT⟩)
    · rename_i hT
      exact ihF hwf.2 _ _ _ _ h4 p n (List.mem_filter.2 ⟨hm, by simpa using hT⟩)
  | cascading A ih =>
    obtain ⟨_, NL, ⟨_, _, hp⟩, h1, h2, _, rfl, hN, _⟩ := hI
    obtain ⟨x, hx, hm⟩ := List.mem_flatMap.1 (hp.mem_iff.1 hm)
    obtain ⟨h', hI'⟩ := nodes_mem hN x hx
    exact ih hwf.1 _ _ _ _ hI' p n hm
  | overflow A ih =>
    obtain ⟨_, h1, h2, _, rfl, h3, _⟩ := hI
    exact ih hwf _ _ _ _ h3 (p - 64) (n + 128) (List.mem_map.2 ⟨_, hm, rfl⟩)
  | threaded A ih =>
    obtain ⟨h1, h2, _, rfl, h3, _⟩ := hI
    exact ih hwf _ _ _ _ h3 p n hm
  | shared A ih =>
    obtain ⟨_, h1, h2, _, rfl, h3, _⟩ := hI
    exact ih hwf.1 _ _ _ _ h3 p n hm
  | reference A ih =>
    obtain ⟨h1, h2, _, rfl, h3, _⟩ := hI
    exact ih hwf _ _ _ _ h3 p n hm

/-! ### An object without blocks out serves what a new one serves -/

theorem linear_empty {S b n : Nat} {s : Linear.St} (hok : Linear.Ok S b s []) (hf : Linear.Fits S n) (h : ∃ k, n ≤ 16 * k ∧ 16 * k ≤ S) :
    (Linear.alloc S s n).1 ≠ 0 := by
  obtain ⟨k, h1, h2⟩ := h
  have h3 := hok.fresh rfl
  have h4 := hok.base_ne
  rcases Linear.alloc_ok hok hf with ⟨_, _, _, h5⟩ | ⟨s', h5, _⟩
  · omega
  · rw [h5]; simp only; omega

theorem Post.cond {α} {c : Prop} [Decidable c] {a b : M α} {Q : α → Prop} (ha : c → Post a Q) (hb : ¬ c → Post b Q) :
    Post (if c then a else b) Q := by
  split
  · exact ha ‹_›
  · exact hb ‹_›

theorem freelist_alloc_post {a M n : Nat} {A : Allocator} {s : Freelist.St A.St} (h1 : a < n) (h2 : n ≤ M)
    (h : s.free = 0 → Post (A.alloc s.a M) (fun r => r.1 ≠ 0)) : Post ((freelist a M A).alloc s n) (fun r => r.1 ≠ 0) := by
  refine Post.cond (fun _ => Post.cond (fun hz => ?_) (fun hz => ?_)) (fun hc => absurd ⟨h1, h2⟩ hc)
  · exact Post.bind' (fun _ => Post.pure hz)
  · exact Post.bind (h (Decidable.not_not.1 hz)) (fun r hr => Post.pure hr)

theorem segragator_alloc_post {T n : Nat} {P F : Allocator} {s : P.St × F.St} (h1 : n ≤ T → Post (P.alloc s.1 n) (fun r => r.1 ≠ 0))
    (h2 : ¬ n ≤ T → Post (F.alloc s.2 n) (fun r => r.1 ≠ 0)) : Post ((segragator T P F).alloc s n) (fun r => r.1 ≠ 0) := by
  refine Post.cond (fun hT => ?_) (fun hT => ?_)
  · exact Post.bind (h1 hT) (fun q hq => Post.pure hq)
  · exact Post.bind (h2 hT) (fun q hq => Post.pure hq)

theorem empty_serves (sys : Sys) (t : AllocTy) (hwf : t.WF) (ho : t.hasOwns = true) (b : Nat) (s : (t.denote sys).St) (h : Heap)
    (hI : (t.sound sys hwf).Inv b s [] h) (n : Nat) (hn : n + t.margin < W64) (hs : t.freshServes n) :
    Post ((t.denote sys).alloc s n) (fun r => r.1 ≠ 0) := by
  induction t generalizing b h n with
  | null => exact hs.elim
  | mallocator => cases ho
  | linear S =>
    exact Post.pure (linear_empty hI.2.1 (by simp only [AllocTy.margin] at hn; show n + 15 + S < W64; omega) hs)
  | stack S =>
    have hI' : (linear_sound S).Inv b (Stack.lin s) [] h := hI
    refine Post.pure ?_
    have := linear_empty hI'.2.1 (by simp only [AllocTy.margin] at hn; show n + 15 + S < W64; omega) hs
    have e : (Linear.alloc S (Stack.lin s) n).1 = (Stack.alloc S s n).1 := congrArg Prod.fst (Stack.lin_alloc S s n)
    exact fun h0 => this (e.trans h0)
  | freelist a M A ih =>
    obtain ⟨_, R, ⟨hl, _⟩, h2, h3, _, rfl, h4, _⟩ := hI
    simp only [AllocTy.margin] at hn
    refine freelist_alloc_post hs.1 hs.2.1 (fun hz => ?_)
    have hR : R = [] := by
      cases R with
      | nil => rfl
      | cons c R => exact absurd (hl.1.symm.trans hz) hl.2.1
    subst hR
    exact ih hwf.1 ho b _ _ h4 M (by omega) hs.2.2
  | fallback P F ihP ihF =>
    obtain ⟨_, L1, L2, hp, h1, h2, _, rfl, h3, h4⟩ := hI
    have hL := List.nil_eq_append_iff.1 (List.nil_perm.1 hp).symm
    rw [hL.1] at h3
    rw [hL.2] at h4
    simp only [AllocTy.margin] at hn
    simp only [AllocTy.hasOwns, Bool.and_eq_true] at ho
    refine Post.bind (R := fun r => P.freshServes n → r.1 ≠ 0) ?_ (fun r hr => ?_)
    · by_cases hP : P.freshServes n
      · exact (ihP hwf.1 ho.1 _ _ _ h3 n (by omega) hP).mono fun _ h _ => h
      · exact fun _ _ _ _ h => absurd h hP
    · by_cases hz : r.1 = 0
      · rw [if_pos hz]
        have hF : F.freshServes n := hs.resolve_left fun h => hr h hz
        exact Post.bind (ihF hwf.2.1 ho.2 _ _ _ h4 n (by omega) hF) (fun q hq => Post.pure hq)
      · rw [if_neg hz]
        exact Post.pure hz
  | segragator T P F ihP ihF =>
    obtain ⟨_, h1, h2, _, rfl, h3, h4⟩ := hI
    simp only [AllocTy.margin] at hn
    simp only [AllocTy.hasOwns, Bool.and_eq_true] at ho
    refine segragator_alloc_post (fun hT => ?_) (fun hT => ?_)
    · simp only [AllocTy.freshServes, if_pos hT] at hs
      exact ihP hwf.1 ho.1 _ _ _ h3 n (by omega) hs
    · simp only [AllocTy.freshServes, if_neg hT] at hs
      exact ihF hwf.2 ho.2 _ _ _ h4 n (by omega) hs
  | cascading A ih =>
    obtain ⟨_, NL, ⟨e, _, hp⟩, h1, h2, _, rfl, hN, _⟩ := hI
    have hsz : MallocFits sys.plat (nodeSize (A.denote sys)) := fun _ => by
      have := hwf.2.2.2; simp only [Cascading.nodeSize, AllocTy.objSize_eq]; omega
    have hfront : ∀ nd rest, (∃ b h, (A.sound sys hwf.1).Inv b nd.st [] h) →
        Post (allocFront sys (A.denote sys) nd rest n) (fun r => r.1 ≠ 0) := by
      rintro nd rest ⟨b, h, hI⟩
      refine Post.bind (ih hwf.1 hwf.2.1 b nd.st h hI n hn hs) (fun r hr => ?_)
      rw [if_neg hr]
      exact Post.pure hr
    refine Post.bind (R := fun s' => ∃ nd rest, s' = nd :: rest ∧ ∃ b h, (A.sound sys hwf.1).Inv b nd.st [] h) ?_ ?_
    · cases NL with
      | nil =>
        subst e
        exact Post.bind (newNode_fresh sys (A.sound sys hwf.1) hsz) (fun nd hnd => Post.pure ⟨nd, [], rfl, _, hnd.2⟩)
      | cons x NL =>
        subst e
        refine Post.pure ⟨x.1, _, rfl, ?_⟩
        have hx : x.2 = [] := by
          have := List.nil_perm.1 hp
          simp only [List.flatMap_cons, List.append_eq_nil_iff] at this
          exact this.1
        obtain ⟨h', hI'⟩ := nodes_mem hN x (by simp)
        rw [hx] at hI'
        exact ⟨_, _, hI'⟩
    · rintro s' ⟨nd, rest, rfl, hnd⟩
      dsimp only
      cases hmax : (A.denote sys).maxSize with
      | none => exact hfront nd rest hnd
      | some f =>
        dsimp only
        cases hf : f nd.st with
        | none => exact Post.ub
        | some m =>
          have := fresh_max sys A n hn hs f hmax nd.st m hf
          dsimp only
          rw [if_neg (by omega)]
          exact hfront nd rest hnd
  | overflow A ih =>
    obtain ⟨_, h1, h2, _, rfl, h3, _⟩ := hI
    simp only [AllocTy.margin] at hn
    have e0 : addW n 128 = n + 128 := by unfold addW; omega
    have h5 := ih hwf ho b s.a h1 h3 (n + 128) (by omega) hs
    rw [← e0] at h5
    refine Post.bind h5 (fun r hr => ?_)
    rw [if_neg hr]
    exact Post.bind' (fun _ => Post.bind' (fun _ => Post.pure (by show r.1 + 64 ≠ 0; omega)))
  | threaded A ih =>
    obtain ⟨h1, h2, _, rfl, h3, _⟩ := hI
    exact ih hwf ho b s h1 h3 n hn hs
  | shared A ih =>
    obtain ⟨_, h1, h2, _, rfl, h3, _⟩ := hI
    exact Post.bind (ih hwf.1 ho _ _ _ h3 n hn hs) (fun r hr => Post.pure hr)
  | reference A ih =>
    obtain ⟨h1, h2, _, rfl, h3, _⟩ := hI
    exact ih hwf ho b s h1 h3 n hn hs

theorem freelist_noRefusal {a M n : Nat} {A : Allocator} {s : Freelist.St A.St} (h1 : a < n) (h2 : n ≤ M)
    (hA : s.free = 0 → NoRefusal (A.alloc s.a M)) : NoRefusal ((freelist a M A).alloc s n) := by
  intro w r w' h hr
  change (if n > a ∧ n ≤ M then _ else _ : KTL.M _) w = _ at h
  rw [if_pos (⟨h1, h2⟩ : n > a ∧ n ≤ M)] at h
  by_cases hz : s.free = 0
  · rw [if_neg (not_not_intro hz)] at h
    obtain ⟨x, w1, e1, e2⟩ := bind_ok h
    cases e2
    exact hA hz _ _ _ e1 hr
  · rw [if_pos hz] at h
    obtain ⟨x, w1, _, e2⟩ := bind_ok h
    cases e2
    exact (hz hr).elim

theorem segragator_noRefusal {T n : Nat} {P F : Allocator} {s : P.St × F.St} (h1 : n ≤ T → NoRefusal (P.alloc s.1 n))
    (h2 : ¬ n ≤ T → NoRefusal (F.alloc s.2 n)) : NoRefusal ((segragator T P F).alloc s n) := by
  intro w r w' h hr
  change (if n ≤ T then _ else _ : M _) w = _ at h
  by_cases hT : n ≤ T
  · rw [if_pos hT] at h
    obtain ⟨x, w1, e1, e2⟩ := bind_ok h
    cases e2
    exact h1 hT _ _ _ e1 hr
  · rw [if_neg hT] at h
    obtain ⟨x, w1, e1, e2⟩ := bind_ok h
    cases e2
    exact h2 hT _ _ _ e1 hr

theorem empty_noRefusal (sys : Sys) (t : AllocTy) (hwf : t.WF) (b : Nat) (s : (t.denote sys).St) (h : Heap)
    (hI : (t.sound sys hwf).Inv b s [] h) (n : Nat) (hn : n + t.margin < W64) (hs : t.freshServes n) :
    NoRefusal ((t.denote sys).alloc s n) := by
  induction t generalizing b h n with
  | null => exact hs.elim
  | mallocator => exact (serves_spec sys .mallocator hwf n hn).2 hs s
  | linear S => exact fun w r w' e hr => absurd hr (empty_serves sys (.linear S) hwf rfl b s h hI n hn hs w r w' e)
  | stack S => exact fun w r w' e hr => absurd hr (empty_serves sys (.stack S) hwf rfl b s h hI n hn hs w r w' e)
  | freelist a M A ih =>
    obtain ⟨_, R, ⟨hl, _⟩, h2, h3, _, rfl, h4, _⟩ := hI
    simp only [AllocTy.margin] at hn
    refine freelist_noRefusal hs.1 hs.2.1 (fun hz => ?_)
    have hR : R = [] := by
      cases R with
      | nil => rfl
      | cons c R => exact absurd (hl.1.symm.trans hz) hl.2.1
    subst hR
    exact ih hwf.1 b _ _ h4 M (by omega) hs.2.2
  | fallback P F ihP ihF =>
    obtain ⟨_, L1, L2, hp, h1, h2, _, rfl, h3, h4⟩ := hI
    have hL := List.nil_eq_append_iff.1 (List.nil_perm.1 hp).symm
    rw [hL.1] at h3
    rw [hL.2] at h4
    simp only [AllocTy.margin] at hn
    intro w r w' h hr
    obtain ⟨x, w1, e1, e2⟩ := bind_ok h
    by_cases hx : x.1 = 0
    · rw [if_pos hx] at e2
      obtain ⟨y, w2, e3, e4⟩ := bind_ok e2
      cases e4
      rcases hs with hs | hs
      · exact (sticky_alloc sys F).2 _ _ _ _ _ e3 (ihP hwf.1 _ _ _ h3 n (by omega) hs _ _ _ e1 hx)
      · exact ihF hwf.2.1 _ _ _ h4 n (by omega) hs _ _ _ e3 hr
    · rw [if_neg hx] at e2
      cases e2
      exact (hx hr).elim
  | segragator T P F ihP ihF =>
    obtain ⟨_, h1, h2, _, rfl, h3, h4⟩ := hI
    simp only [AllocTy.margin] at hn
    refine segragator_noRefusal (fun hT => ?_) (fun hT => ?_)
    · simp only [AllocTy.freshServes, if_pos hT] at hs
      exact ihP hwf.1 _ _ _ h3 n (by omega) hs
    · simp only [AllocTy.freshServes, if_neg hT] at hs
      exact ihF hwf.2 _ _ _ h4 n (by omega) hs
  | cascading A ih => exact (serves_spec sys (.cascading A) hwf n hn).2 hs s
  | overflow A ih =>
    obtain ⟨_, h1, h2, _, rfl, h3, _⟩ := hI
    simp only [AllocTy.margin] at hn
    have e0 : addW n 128 = n + 128 := by unfold addW; omega
    have h5 := ih hwf b s.a h1 h3 (n + 128) (by omega) hs
    rw [← e0] at h5
    intro w r w' h hr
    obtain ⟨x, w1, e1, e2⟩ := bind_ok h
    by_cases hx : x.1 = 0
    · rw [if_pos hx] at e2
      cases e2
      exact h5 _ _ _ e1 hx
    · rw [if_neg hx] at e2
      obtain ⟨_, w2, _, e3⟩ := bind_ok e2
      obtain ⟨_, w3, _, e4⟩ := bind_ok e3
      cases e4
      have : x.1 + 64 = 0 := hr
      omega
  | threaded A ih =>
    obtain ⟨h1, h2, _, rfl, h3, _⟩ := hI
    exact ih hwf b s h1 h3 n hn hs
  | shared A ih =>
    obtain ⟨_, h1, h2, _, rfl, h3, _⟩ := hI
    intro w r w' h hr
    obtain ⟨x, w1, e1, e2⟩ := bind_ok h
    cases e2
    exact ih hwf.1 _ _ _ h3 n hn hs _ _ _ e1 hr
  | reference A ih =>
    obtain ⟨h1, h2, _, rfl, h3, _⟩ := hI
    exact ih hwf b s h1 h3 n hn hs

/-! ### Instances without blocks -/

/-- how many instances behind the first have no block out -/
def idle {α} (s : List (Node α)) : Nat := s.tail.countP fun nd => decide (nd.cnt = 0)

theorem dealloc_idle (sys : Sys) (A : Allocator) (p n k : Nat) (s : List (Node A.St)) (h : idle s ≤ k) :
    Post (Cascading.dealloc sys A p n false s) (fun s' => idle s' ≤ k) := by
  intro w s' w' e
  rcases cascading_dealloc_cases sys A p n false s s' w w' e with rfl | ⟨pre, nd, post, st, w1, rfl, _, _, _, rfl⟩
  · exact h
  · cases pre with
    | nil => simpa [idle] using h
    | cons x pre =>
      simp only [idle, List.cons_append, List.tail_cons, List.countP_append, List.countP_cons] at h
      split
      · simp only [idle, List.cons_append, List.tail_cons, List.countP_append]
        omega
      · rename_i hc
        have h0 : decr nd.cnt ≠ 0 := fun e => hc ⟨e, .inr (by simp)⟩
        simp only [idle, List.cons_append, List.tail_cons, List.countP_append, List.countP_cons, decide_eq_true_eq]
        rw [if_neg h0]
        omega

theorem routeGo_idle (A : Allocator) (g : A.St → Nat → M A.St) (ev : Nat → Ev) (p k : Nat) (s : List (Node A.St)) (h : idle s ≤ k) :
    Post (routeGo A g ev p s) (fun s' => idle s' ≤ k) := by
  refine (routeGo_counts A g ev p s).mono (fun s' e => ?_)
  have e' : s'.tail.map Node.cnt = s.tail.map Node.cnt := by
    rw [List.map_tail, List.map_tail, e]
  have key : ∀ l : List (Node A.St), l.countP (fun nd => decide (nd.cnt = 0)) = (l.map Node.cnt).countP (fun c => decide (c = 0)) := by
    intro l; rw [List.countP_map]; rfl
  unfold idle at h ⊢
  rw [key, e', ← key]
  exact h

theorem alloc_idle (sys : Sys) (A : AllocTy) (hwf : (AllocTy.cascading A).WF) (s : List (Node (A.denote sys).St)) (n k : Nat)
    (h : idle s ≤ k) (hn : n + A.margin < W64)
    (hfr : ∀ nd rest, s = nd :: rest → nd.cnt = 0 → ∃ b h, (A.sound sys hwf.1).Inv b nd.st [] h) :
    Post (Cascading.alloc sys (A.denote sys) s n) (fun r => idle r.2 ≤ k + if A.Hopeless n then 1 else 0) := by
  have hsz : MallocFits sys.plat (nodeSize (A.denote sys)) := fun _ => by
    have := hwf.2.2.2; simp only [Cascading.nodeSize, AllocTy.objSize_eq]; omega
  have hfront : ∀ nd rest, idle (nd :: rest) ≤ k → (nd.cnt = 0 → ∃ b h, (A.sound sys hwf.1).Inv b nd.st [] h) →
      (∀ m, A.maxOf = some m → n ≤ m) →
      Post (allocFront sys (A.denote sys) nd rest n) (fun r => idle r.2 ≤ k + if A.Hopeless n then 1 else 0) := by
    intro nd rest h hfr hmax
    refine Post.bind (R := fun r : Nat × (A.denote sys).St => A.freshServes n → nd.cnt = 0 → r.1 ≠ 0) ?_ (fun r hr => ?_)
    · by_cases hc : A.freshServes n ∧ nd.cnt = 0
      · obtain ⟨b, g, hI⟩ := hfr hc.2
        exact (empty_serves sys A hwf.1 hwf.2.1 b nd.st g hI n hn hc.1).mono fun _ h _ _ => h
      · exact fun _ _ _ _ h1 h2 => absurd ⟨h1, h2⟩ hc
    · refine Post.cond (fun hz => ?_) (fun hz => ?_)
      · refine Post.bind' (fun nd2 => Post.bind' (fun q => Post.pure ?_))
        have h' : rest.countP (fun nd => decide (nd.cnt = 0)) ≤ k := h
        simp only [idle, List.tail_cons, List.countP_cons, decide_eq_true_eq]
        by_cases hf : A.freshServes n
        · rw [if_neg (fun hc => hr hf hc hz)]
          omega
        · rw [if_pos (show A.Hopeless n from ⟨hf, hmax⟩)]
          split <;> omega
      · refine Post.pure ?_
        have h' : rest.countP (fun nd => decide (nd.cnt = 0)) ≤ k := h
        simp only [idle, List.tail_cons]
        omega
  refine Post.bind (R := fun s' => idle s' ≤ k ∧ ∀ nd rest, s' = nd :: rest → nd.cnt = 0 → ∃ b h, (A.sound sys hwf.1).Inv b nd.st [] h) ?_ ?_
  · unfold ensure
    cases s with
    | nil =>
      refine Post.bind (newNode_fresh sys (A.sound sys hwf.1) hsz) (fun nd hnd => Post.pure ⟨by simp [idle], ?_⟩)
      intro nd' rest e _
      cases e
      exact ⟨_, hnd.2⟩
    | cons nd rest => exact Post.pure ⟨h, hfr⟩
  · rintro s' ⟨h, hfr⟩
    cases s' with
    | nil => exact Post.ub
    | cons nd rest =>
      dsimp only
      cases hm : (A.denote sys).maxSize with
      | none =>
        refine hfront nd rest h (hfr nd rest rfl) (fun m hm' => ?_)
        have h1 := A.max_isSome sys
        have h2 := maxOf_isSome A
        rw [hm] at h1
        rw [hm', ← h1] at h2
        cases h2
      | some f =>
        dsimp only
        obtain ⟨m, h1, h2⟩ := max_some sys A f hm
        cases hf : f nd.st with
        | none => exact Post.ub
        | some m' =>
          have := h2 _ _ hf
          subst this
          dsimp only
          refine Post.cond (fun _ => Post.pure ?_) (fun hc => ?_)
          · exact Nat.le_trans h (Nat.le_add_right _ _)
          · exact hfront nd rest h (hfr nd rest rfl) (fun m hm' => by rw [h1] at hm'; cases hm'; omega)

theorem hopeless_append (A : AllocTy) (o1 o2 : List Op) : hopeless A (o1 ++ o2) = hopeless A o1 + hopeless A o2 := by
  induction o1 with
  | nil => simp [hopeless]
  | cons o o1 ih => cases o <;> simp only [List.cons_append, hopeless, ih] <;> omega

/-- the instances of a cascade after a history, with the blocks each has out -/
theorem cascade_nodes (sys : Sys) (A : AllocTy) (hwf : (AllocTy.cascading A).WF) (b : Nat) (w : World) (hs : Storage w b 16)
    (ops : List Op) (hops : Sane (.cascading A) ops) (c : Client (cascading sys (A.denote sys))) (w' : World)
    (hrun : play sys (cascading sys (A.denote sys)) b ops w = .ok c w') :
    ∃ NL, (NL.map Prod.fst = c.st ∧ NodesOk NL ∧ (c.live.map blk).Perm (NL.flatMap Prod.snd)) ∧
      ∃ h, nodesInv sys.plat (A.sound sys hwf.1) NL h := by
  obtain ⟨h, hf, hd, he, hI⟩ := sound_reach sys ((AllocTy.cascading A).sound sys hwf) b w hs ops (hops.fits sys hwf) hrun
  obtain ⟨_, NL, ⟨g1, g2, g3⟩, k1, k2, _, _, hN, _⟩ := hI
  exact ⟨NL, ⟨g1, g2, g3⟩, k1, hN⟩

/-- **C16, every underlying allocator.** After any history the number of instances is at most the number of live
blocks, plus one, plus the number of requests so far that are hopeless: that `max_size()` does not exclude but
that even a new instance refuses.

Missing from the full statement: histories with hopeless requests; see `C16_false` and `C16_hopeless_adds`. -/
theorem C16_instances_partial (sys : Sys) (A : AllocTy) (hwf : (AllocTy.cascading A).WF) (b : Nat) (w : World)
    (hs : Storage w b (AllocTy.cascading A).size) (ops : List Op) (hops : Sane (.cascading A) ops)
    (c : Client (cascading sys (A.denote sys))) (w' : World) (hrun : play sys (cascading sys (A.denote sys)) b ops w = .ok c w') :
    List.length c.st ≤ c.live.length + 1 + hopeless A ops := by
  have htail : idle (α := (A.denote sys).St) c.st ≤ hopeless A ops := by
    induction ops using snocRec generalizing c w' with
    | nil =>
      obtain ⟨s, w1, e1, e2⟩ := bind_ok hrun
      cases e1; cases e2
      exact Nat.le_refl _
    | append_singleton ops o ih =>
      obtain ⟨c1, w1, r1, r2⟩ := play_snoc_ok hrun
      have hops1 : Sane (.cascading A) ops := fun n hn => hops n (List.mem_append_left _ hn)
      have ih1 := ih hops1 c1 w1 r1
      obtain ⟨NL, ⟨g1, g2, g3⟩, k, hN⟩ := cascade_nodes sys A hwf b w hs ops hops1 c1 w1 r1
      rw [hopeless_append]
      refine cascading_step sys (A.denote sys) (fun s => idle s ≤ hopeless A ops + hopeless A [o]) c1 o (by omega) ?_
        (fun p n => dealloc_idle sys _ p n _ c1.st (by omega)) (fun g ev p => routeGo_idle _ g ev p _ c1.st (by omega)) w1 c w' r2
      rintro n rfl
      refine alloc_idle sys A hwf c1.st n _ ih1 (hops n (by simp)).2.2 ?_
      intro nd rest e hc
      rw [← g1] at e
      cases NL with
      | nil => cases e
      | cons x NL =>
        have e' : x.1 = nd := (List.cons.inj e).1
        obtain ⟨h', hI⟩ := nodes_mem hN x (by simp)
        have := (g2 x (by simp)).1
        rw [e', hc] at this
        rw [e', List.length_eq_zero_iff.1 this.symm] at hI
        exact ⟨_, _, hI⟩
  obtain ⟨NL, ⟨g1, g2, g3⟩, hN⟩ := cascade_nodes sys A hwf b w hs ops hops c w' hrun
  have hlen := g3.length_eq
  rw [← g1] at htail ⊢
  rw [List.length_map] at hlen ⊢
  rw [hlen]
  cases NL with
  | nil => simp
  | cons x NL =>
    have : NL.length ≤ (NL.flatMap Prod.snd).length + (NL.map Prod.fst).countP (fun nd => decide (nd.cnt = 0)) := by
      have hpos : ∀ y ∈ NL, y.1.cnt = y.2.length := fun y hy => (g2 y (List.mem_cons_of_mem _ hy)).1
      clear htail g2 g3 g1 hlen hN
      induction NL with
      | nil => simp
      | cons y NL ih =>
        have h1 := ih (fun z hz => hpos z (List.mem_cons_of_mem _ hz))
        have h2 := hpos y (by simp)
        simp only [List.flatMap_cons, List.length_append, List.length_cons, List.map_cons, List.countP_cons, decide_eq_true_eq]
        split <;> omega
    have h' : (NL.map Prod.fst).countP (fun nd => decide (nd.cnt = 0)) ≤ hopeless A ops := htail
    simp only [List.flatMap_cons, List.length_append, List.length_cons]
    omega

/-- **C63, the other half.** A request that a new object refuses is refused after every history: every block the
client holds has a size that a new object serves. -/
theorem C63_live_sizes (sys : Sys) (t : AllocTy) (hwf : t.WF) (b : Nat) (w : World) (hs : Storage w b t.size)
    (ops : List Op) (hops : Sane t ops) (c : Client (t.denote sys)) (w' : World) (hrun : play sys (t.denote sys) b ops w = .ok c w')
    (p : Nat) (bs : List UInt8) (hm : (p, bs) ∈ c.live) : t.freshServes bs.length := by
  obtain ⟨h, hf, hd, he, hI⟩ := sound_reach sys (t.sound sys hwf) b w (by rw [AllocTy.objSize_eq]; exact hs) ops (hops.fits sys hwf) hrun
  exact live_fresh sys t hwf b c.st _ h hI p bs.length (List.mem_map.2 ⟨_, hm, rfl⟩)

/-- **C63, emptied objects are as good as new.** After any history that gave every block back, the next request is
served exactly if a new object of the type would serve it, unless `malloc` failed: nothing of the history makes
later requests fail. -/
theorem C63_emptied_serves (sys : Sys) (t : AllocTy) (hwf : t.WF) (b : Nat) (w : World) (hs : Storage w b t.size)
    (ops : List Op) (hops : Sane t ops) (c : Client (t.denote sys)) (w1 : World) (hrun : play sys (t.denote sys) b ops w = .ok c w1)
    (hempty : c.live = []) (n : Nat) (h0 : 0 < n) (hn : n + t.margin < W64) (c' : Client (t.denote sys)) (w2 : World)
    (hstep : c.step sys (.allocate n) w1 = .ok c' w2) :
    (t.freshServes n → w2.failed = true ∨ ∃ p bs, p ≠ 0 ∧ bs.length = n ∧ c'.live = [(p, bs)]) ∧ (¬ t.freshServes n → c'.live = []) := by
  have hops2 : Sane t (ops ++ [.allocate n]) := by
    intro k hk
    rcases List.mem_append.1 hk with hk | hk
    · exact hops k hk
    · simp only [List.mem_singleton, Op.allocate.injEq] at hk
      subst hk
      exact ⟨by omega, h0, hn⟩
  have hrun' : play sys (t.denote sys) b (ops ++ [.allocate n]) w = .ok c' w2 := by
    rw [play_append, bind_of_ok hrun]
    have : c.run sys [.allocate n] = c.step sys (.allocate n) := by
      simp only [Client.run]; exact bind_pure _
    rw [this]; exact hstep
  have hlive := C63_live_sizes sys t hwf b w hs _ hops2 c' w2 hrun'
  obtain ⟨h, hf, hd, he, hI⟩ := sound_reach sys (t.sound sys hwf) b w (by rw [AllocTy.objSize_eq]; exact hs) ops (hops.fits sys hwf) hrun
  rw [hempty] at hI
  obtain ⟨r, w3, e1, e2⟩ := bind_ok hstep
  by_cases hr : r.1 = 0
  · rw [if_pos hr] at e2
    cases e2
    exact ⟨fun hfr => .inl (empty_noRefusal sys t hwf b c.st h hI n hn hfr _ _ _ e1 hr), fun _ => hempty⟩
  · rw [if_neg hr] at e2
    obtain ⟨bs, w4, e3, e4⟩ := bind_ok e2
    cases e4
    have hl : bs.length = n := Linear.readBytes_length _ _ _ _ _ e3
    refine ⟨fun _ => .inr ⟨r.1, bs, hr, hl, by simp [hempty]⟩, fun hfr => absurd (hl ▸ hlive r.1 bs (by simp)) hfr⟩

/-- A refused request of a cascade, within `max_size()`, adds an instance. -/
theorem refused_adds (sys : Sys) (A : AllocTy) (s : List (Node (A.denote sys).St)) (n : Nat) (hmax : ∀ m, A.maxOf = some m → n ≤ m) :
    Post (Cascading.alloc sys (A.denote sys) s n) (fun r => r.1 = 0 → r.2.length = max s.length 1 + 1) := by
  refine Post.bind (R := fun s' => s'.length = max s.length 1) ?_ ?_
  · unfold ensure
    cases s with
    | nil => exact Post.bind' (fun nd => Post.pure rfl)
    | cons nd rest => exact Post.pure (by simp)
  · intro s' hs'
    cases s' with
    | nil => exact Post.ub
    | cons nd rest =>
      have hfront : Post (allocFront sys (A.denote sys) nd rest n) (fun r => r.1 = 0 → r.2.length = max s.length 1 + 1) := by
        refine Post.bind' (fun r => Post.cond (fun hz => ?_) (fun hz => Post.pure (fun h => absurd h hz)))
        refine Post.bind' (fun nd2 => Post.bind' (fun q => Post.pure (fun _ => ?_)))
        rw [← hs']
        simp
      dsimp only
      cases hm : (A.denote sys).maxSize with
      | none => exact hfront
      | some f =>
        dsimp only
        obtain ⟨m, h1, h2⟩ := max_some sys A f hm
        cases hf : f nd.st with
        | none => exact Post.ub
        | some m' =>
          have := h2 _ _ hf
          subst this
          have := hmax _ h1
          dsimp only
          exact Post.cond (fun hc => absurd hc (by omega)) (fun _ => hfront)

/-- **C16, how it fails.** Every hopeless request adds one instance and no block, after any history: `k` of them
leave `k` more instances behind (plus the first one, if there was none). -/
theorem C16_hopeless_adds (sys : Sys) (A : AllocTy) (hwf : (AllocTy.cascading A).WF) (b : Nat) (w : World)
    (hs : Storage w b (AllocTy.cascading A).size) (ops : List Op) (hops : Sane (.cascading A) ops)
    (c : Client (cascading sys (A.denote sys))) (w1 : World) (hrun : play sys (cascading sys (A.denote sys)) b ops w = .ok c w1)
    (n : Nat) (hn : 0 < n ∧ n + A.margin < W64) (hh : A.Hopeless n) (k : Nat) (c' : Client (cascading sys (A.denote sys))) (w2 : World)
    (hrun' : play sys (cascading sys (A.denote sys)) b (ops ++ List.replicate (k + 1) (.allocate n)) w = .ok c' w2) :
    c'.live = c.live ∧ List.length c'.st = max (List.length c.st) 1 + (k + 1) := by
  have hone : ∀ (ops : List Op), Sane (.cascading A) ops → ∀ (c c' : Client (cascading sys (A.denote sys))) w1 w2,
      play sys (cascading sys (A.denote sys)) b ops w = .ok c w1 → play sys (cascading sys (A.denote sys)) b (ops ++ [.allocate n]) w = .ok c' w2 →
      c'.live = c.live ∧ List.length c'.st = max (List.length c.st) 1 + 1 := by
    intro ops hops c c' w1 w2 r1 r2
    have hops2 : Sane (.cascading A) (ops ++ [.allocate n]) := by
      intro n' hn'
      rcases List.mem_append.1 hn' with h | h
      · exact hops n' h
      · simp only [List.mem_singleton, Op.allocate.injEq] at h
        subst h
        exact ⟨by omega, hn⟩
    have hlive := C63_live_sizes sys (.cascading A) hwf b w hs _ hops2 c' w2 r2
    obtain ⟨c1, w3, r3, r4⟩ := play_snoc_ok r2
    rw [r1] at r3
    cases r3
    obtain ⟨r, w4, e1, e2⟩ := bind_ok r4
    have hadd : r.1 = 0 → List.length r.2 = max (List.length c.st) 1 + 1 := refused_adds sys A c.st n hh.2 w1 r w4 e1
    by_cases hz : r.1 = 0
    · rw [if_pos hz] at e2
      cases e2
      exact ⟨rfl, hadd hz⟩
    · rw [if_neg hz] at e2
      obtain ⟨bs, w5, e3, e4⟩ := bind_ok e2
      cases e4
      have hl : bs.length = n := Linear.readBytes_length _ _ _ _ _ e3
      exact absurd (hl ▸ hlive r.1 bs (by simp)) hh.1
  induction k generalizing c' w2 with
  | zero => exact hone ops hops c c' w1 w2 hrun hrun'
  | succ k ih =>
    rw [List.replicate_succ', ← List.append_assoc] at hrun'
    obtain ⟨c1, w3, r3, r4⟩ := play_snoc_ok hrun'
    obtain ⟨i1, i2⟩ := ih c1 w3 r3
    have hops2 : Sane (.cascading A) (ops ++ List.replicate (k + 1) (.allocate n)) := by
      intro n' hn'
      rcases List.mem_append.1 hn' with h | h
      · exact hops n' h
      · obtain ⟨_, h⟩ := List.mem_replicate.1 h
        cases h
        exact ⟨by omega, hn⟩
    obtain ⟨j1, j2⟩ := hone _ hops2 c1 c' w3 w2 r3 hrun'
    exact ⟨j1.trans i1, by rw [j2, i2]; omega⟩

/-! ### Non-vacuity -/

/-- a free list over an arena, used and emptied, serves again what it served when new -/
example : ((play (demoSys .direct) (fallback (linear 32) (freelist 16 64 (stackAlloc 64))) 4096
    [.allocate 64, .allocate 20, .deallocate 0, .deallocate 0, .allocate 50] (demoWorld 256)).test fun c _ =>
      decide (c.live.length = 1)) = true ∧
    (AllocTy.fallback (.linear 32) (.freelist 16 64 (.stack 64))).freshServes 50 ∧
    ¬ (AllocTy.fallback (.linear 32) (.freelist 16 64 (.stack 64))).freshServes 65 := by
  refine ⟨by decide +kernel, by decide, by decide⟩

/-- an allocator with five parts that has no hopeless requests within 64 bytes, so the bound is live blocks + 1 -/
example : (AllocTy.cascading (.threaded (.fallback (.linear 32) (.stack 64)))).WF ∧
    hopeless (.threaded (.fallback (.linear 32) (.stack 64))) [.allocate 64, .allocate 20, .allocate 500, .deallocate 0] = 0 ∧
    ¬ (AllocTy.overflow (.linear 64)).freshServes 8 ∧ (AllocTy.overflow (.linear 64)).Hopeless 8 := by decide
example : (AllocTy.linear 20).Hopeless 20 ∧ ¬ (AllocTy.linear 32).Hopeless 20 ∧ ¬ (AllocTy.linear 20).Hopeless 21 := by decide
/-- two hopeless requests: three instances, no block -/
example : ((play (demoSys .direct) (cascading (demoSys .direct) (linear 20)) 4096
    ([.allocate 16, .deallocate 0] ++ List.replicate 2 (.allocate 20)) (demoWorld 16)).test fun c _ =>
      decide (List.length c.st = 3 ∧ c.live.length = 0)) = true := by decide +kernel
/-- the bound is reached: two live blocks, three instances -/
example : ((play (demoSys .direct) (cascading (demoSys .direct) (threaded (fallback (linear 32) (stackAlloc 64)))) 4096
    [.allocate 64, .allocate 20, .allocate 64, .allocate 64, .deallocate 0, .deallocate 1] (demoWorld 16)).test fun c _ =>
      decide (List.length c.st = 3 ∧ c.live.length = 2)) = true := by decide +kernel

end KTL
