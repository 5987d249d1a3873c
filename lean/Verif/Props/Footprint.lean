import Verif.Props.Instances
import Verif.Props.Pointers
import Verif.Spec.Ghost

/- C102: what a composed allocator holds from `malloc` is bounded by the largest number of blocks that were in use at the same
time, however long the program runs. -/
namespace KTL
open Cascading

/-! ### Specification -/

namespace AllocTy

/-- How many `malloc` blocks an object of this type may hold if at most `p` of its own blocks are ever in use at once. -/
def holds : AllocTy → Nat → Nat
  | null, _ => 0
  | mallocator, p => p
  | linear _, _ => 0
  | stack _, _ => 0
  | freelist _ _ A, p => A.holds p
  | fallback P F, p => P.holds p + F.holds p
  | segragator _ P F, p => P.holds p + F.holds p
  | cascading A, p => (p + 1) * (1 + A.holds p)
  | overflow A, p => A.holds p
  | threaded A, p => A.holds p
  | shared A, p => A.holds p + 1
  | reference A, p => A.holds p

/-- How large each of them may be if no block in use is larger than `m` bytes: 16 bytes are for aligning a block by hand,
16 for the fields of a node or of the shared counter. -/
def largest : AllocTy → Nat → Nat
  | null, _ => 0
  | mallocator, m => m + 16
  | linear _, _ => 0
  | stack _, _ => 0
  | freelist _ Max A, _ => A.largest Max
  | fallback P F, m => max (P.largest m) (F.largest m)
  | segragator _ P F, m => max (P.largest m) (F.largest m)
  | cascading A, m => max (A.size + 32) (A.largest m)
  | overflow A, m => A.largest (m + 128)
  | threaded A, m => A.largest m
  | shared A, m => max (A.size + 32) (A.largest m)
  | reference A, m => A.largest m

/-- A request of `n` bytes reaches no `cascading` for which it is hopeless (`AllocTy.Hopeless`: such requests add an instance
each time, `C16_hopeless_adds`). -/
def Thrifty : AllocTy → Nat → Prop
  | null, _ => True
  | mallocator, _ => True
  | linear _, _ => True
  | stack _, _ => True
  | freelist m Max A, n => m < n → n ≤ Max → A.Thrifty Max
  | fallback P F, n => P.Thrifty n ∧ F.Thrifty n
  | segragator T P F, n => (n ≤ T → P.Thrifty n) ∧ (T < n → F.Thrifty n)
  | cascading A, n => ¬ A.Hopeless n ∧ A.Thrifty n
  | overflow A, n => A.Thrifty (n + 128)
  | threaded A, n => A.Thrifty n
  | shared A, n => A.Thrifty n
  | reference A, n => A.Thrifty n

end AllocTy

/-- how one step changes a bound on the number of blocks in use: only giving back the latest block certainly reduces it -/
def Op.count (n : Nat) : Op → Nat
  | .allocate _ => n + 1
  | .deallocate 0 => n - 1
  | _ => n

/-- the largest number of blocks in use while these steps run, if there are at most `n` before -/
def peakFrom (n : Nat) : List Op → Nat
  | [] => n
  | o :: ops => max n (peakFrom (o.count n) ops)

/-- the number of blocks in use afterwards -/
def countFrom (n : Nat) (ops : List Op) : Nat := ops.foldl Op.count n

/-- There are at most `k` blocks (address, size) in `S`, none of them larger than `m` bytes. -/
def AtMost (k m : Nat) (S : Nat → Nat → Prop) : Prop :=
  ∃ l : List Nat, l.length ≤ k ∧ ∀ a n, S a n → a ∈ l ∧ n ≤ m

/-! ### The allocators with their books

Every `freelist` keeps a ledger of what it has taken from its part (`Spec/Strict.lean`); nothing else changes. -/

/-- `overflow` over parts that behave alike -/
theorem overflow_alike {A B : Allocator} {f : A.St → B.St} (h : Refines A B f) :
    Refines (overflow A) (overflow B) (fun s => ⟨f s.a, s.allocs, s.constructs⟩) where
  size := (overflow_refines (slack := 1) h).size
  init b := Below.bind (h.init b) fun s => Below.pure _ _ _ rfl
  alloc s n := by
    refine Below.bind (h.alloc s.a _) fun r => ?_
    simp only
    split
    · exact Below.pure _ _ _ rfl
    · exact Below.bind (f := id) (Below.refl _) fun _ => Below.bind (f := id) (Below.refl _) fun _ => Below.pure _ _ _ rfl
  dealloc s p n := by
    simp only [overflow]
    split
    · exact Below.bind (f := id) (Below.refl _) fun x => Below.bind (f := id) (Below.refl _) fun y =>
        Below.bind (f := id) (Below.refl _) fun _ => Below.bind (h.dealloc _ _ _) fun _ => Below.pure _ _ _ rfl
    · exact Below.pure _ _ _ rfl
  owns := (overflow_refines (slack := 1) h).owns
  maxSize := (overflow_refines (slack := 1) h).maxSize
  construct := (overflow_refines (slack := 1) h).construct
  destroy := (overflow_refines (slack := 1) h).destroy
  fini := (overflow_refines (slack := 1) h).fini

namespace AllocTy

/-- `denote` with the books -/
def book (sys : Sys) : AllocTy → Allocator
  | null => nullAlloc
  | mallocator => KTL.mallocator sys
  | linear S => KTL.linear S
  | stack S => KTL.stackAlloc S
  | freelist m M A => KTL.freelist m M (strict (A.book sys))
  | fallback P F => KTL.fallback (P.book sys) (F.book sys)
  | segragator T P F => KTL.segragator T (P.book sys) (F.book sys)
  | cascading A => KTL.cascading sys (A.book sys)
  | overflow A => KTL.overflow (A.book sys)
  | threaded A => KTL.threaded (A.book sys)
  | shared A => KTL.sharedAlloc sys (A.book sys)
  | reference A => KTL.reference (A.book sys)

/-- the state without the books -/
def unbook (sys : Sys) : (t : AllocTy) → (t.book sys).St → (t.denote sys).St
  | null => id
  | mallocator => id
  | linear _ => id
  | stack _ => id
  | freelist _ _ A => fun s : Freelist.St ((A.book sys).St × Ledger) => (⟨A.unbook sys s.a.1, s.free⟩ : Freelist.St (A.denote sys).St)
  | fallback P F => fun s : (P.book sys).St × (F.book sys).St => (P.unbook sys s.1, F.unbook sys s.2)
  | segragator _ P F => fun s : (P.book sys).St × (F.book sys).St => (P.unbook sys s.1, F.unbook sys s.2)
  | cascading A => fun s : List (Node (A.book sys).St) => s.map (Node.map (A.unbook sys))
  | overflow A => fun s : Overflow.St (A.book sys).St => (⟨A.unbook sys s.a, s.allocs, s.constructs⟩ : Overflow.St (A.denote sys).St)
  | threaded A => A.unbook sys
  | shared A => fun s : Nat × (A.book sys).St => (s.1, A.unbook sys s.2)
  | reference A => A.unbook sys

theorem book_refines (sys : Sys) : ∀ t : AllocTy, Refines (t.book sys) (t.denote sys) (t.unbook sys)
  | null => Refines.refl _
  | mallocator => Refines.refl _
  | linear _ => Refines.refl _
  | stack _ => Refines.refl _
  | freelist m M A => freelist_refines m M ((strict_refines _).trans (book_refines sys A))
  | fallback P F => fallback_refines (book_refines sys P) (book_refines sys F)
  | segragator T P F => segragator_refines T (book_refines sys P) (book_refines sys F)
  | cascading A => cascading_refines sys (book_refines sys A)
  | overflow A => overflow_alike (book_refines sys A)
  | threaded A => threaded_refines (book_refines sys A)
  | shared A => shared_refines sys (book_refines sys A)
  | reference A => reference_refines (book_refines sys A)

theorem book_owns (sys : Sys) (t : AllocTy) : (t.book sys).owns.isSome = t.hasOwns := by
  rw [(book_refines sys t).owns, Option.isSome_map, owns_isSome]

theorem book_size (sys : Sys) (t : AllocTy) : (t.book sys).objSize = t.size := by
  rw [(book_refines sys t).size, objSize_eq]

theorem book_max (sys : Sys) (t : AllocTy) (h : t.safeMax = true) : MaxTotal (t.book sys) := by
  intro g hg
  rw [(book_refines sys t).maxSize] at hg
  exact maxTotal_map _ (maxTotal sys t h) g hg

def bsound (sys : Sys) : (t : AllocTy) → t.WF → Sound (t.book sys) (t.fits sys.plat)
  | null, _ => null_sound
  | mallocator, _ => mallocator_sound sys
  | linear S, _ => linear_sound S
  | stack S, _ => stack_sound S
  | freelist m M A, h => freelist_sound m M (strict_sound (A.bsound sys h.1)) h.2.1 h.2.2
  | fallback P F, h => fallback_sound (P.bsound sys h.1) (F.bsound sys h.2.1) (by rw [book_owns]; exact h.2.2)
  | segragator T P F, h => segragator_sound T (P.bsound sys h.1) (F.bsound sys h.2)
  | cascading A, h => cascading_sound sys (A.bsound sys h.1) (by rw [book_owns]; exact h.2.1)
      (book_max sys A h.2.2.1) (fun _ => by
        have := h.2.2.2; simp only [Cascading.nodeSize, book_size]; omega)
  | overflow A, h => overflow_sound (A.bsound sys h)
  | threaded A, h => threaded_sound (A.bsound sys h)
  | shared A, h => shared_sound sys (A.bsound sys h.1) (fun _ => by
        have := h.2; simp only [Cascading.nodeSize, book_size]; omega)
  | reference A, h => reference_sound (A.bsound sys h)

/-- The books do not disturb the contract. -/
theorem unbook_inv (sys : Sys) (t : AllocTy) (hwf : t.WF) (b : Nat) (s : (t.book sys).St) (L : List (Nat × Nat)) (h : Heap)
    (hI : (t.bsound sys hwf).Inv b s L h) : (t.sound sys hwf).Inv b (t.unbook sys s) L h := by
  induction t generalizing b L h with
  | null => exact hI
  | mallocator => exact hI
  | linear S => exact hI
  | stack S => exact hI
  | freelist m M A ih =>
    obtain ⟨h1, R, h2, h3⟩ := hI
    have e : (strict (A.book sys)).objSize = (A.denote sys).objSize := (book_refines sys A).size
    rw [e] at h3
    exact ⟨h1, R, h2, star_mono_left (fun _ g => ih hwf.1 _ _ _ _ g.2) _ h3⟩
  | fallback P F ihP ihF =>
    obtain ⟨h1, L1, L2, h2, g1, g2, hd, rfl, h3, h4⟩ := hI
    rw [(book_refines sys P).size] at h4
    exact ⟨h1, L1, L2, h2, g1, g2, hd, rfl, ihP hwf.1 _ _ _ _ h3, ihF hwf.2.1 _ _ _ _ h4⟩
  | segragator T P F ihP ihF =>
    obtain ⟨h1, g1, g2, hd, rfl, h3, h4⟩ := hI
    rw [(book_refines sys P).size] at h4
    exact ⟨h1, g1, g2, hd, rfl, ihP hwf.1 _ _ _ _ h3, ihF hwf.2 _ _ _ _ h4⟩
  | cascading A ih =>
    obtain ⟨h1, NL, ⟨h2, h3, h4⟩, h5⟩ := hI
    refine ⟨h1, NL.map fun x => (Node.map (A.unbook sys) x.1, x.2), ⟨?_, ?_, ?_⟩, star_mono_left (fun g hg => ?_) _ h5⟩
    · show _ = List.map _ _
      rw [← h2, List.map_map, List.map_map]; rfl
    · intro x hx
      obtain ⟨y, hy, rfl⟩ := List.mem_map.1 hx
      exact h3 y hy
    · rw [List.flatMap_map]; exact h4
    · clear h1 h2 h3 h4 h5
      induction NL generalizing g with
      | nil => exact hg
      | cons x NL ih2 =>
        obtain ⟨a1, a2, hd, rfl, h6, h7⟩ := hg
        refine ⟨a1, a2, hd, rfl, ?_, ih2 _ h7⟩
        have e : (A.book sys).objSize = (A.denote sys).objSize := (book_refines sys A).size
        simp only [nodeSize, e] at h6
        exact star_mono_left (fun _ g => ih hwf.1 _ _ _ _ g) _ h6
  | overflow A ih =>
    obtain ⟨h1, h2⟩ := hI
    rw [(book_refines sys A).size] at h2
    exact ⟨h1, star_mono_left (fun _ g => ih hwf _ _ _ _ g) _ h2⟩
  | threaded A ih =>
    have h2 : ((A.bsound sys hwf).Inv b s L ∗ _) h := hI
    rw [(book_refines sys A).size] at h2
    exact star_mono_left (fun _ g => ih hwf _ _ _ _ g) _ h2
  | shared A ih =>
    obtain ⟨h1, h2⟩ := hI
    have e : (A.book sys).objSize = (A.denote sys).objSize := (book_refines sys A).size
    simp only [nodeSize, e] at h2
    exact ⟨h1, star_mono_left (fun _ g => ih hwf.1 _ _ _ _ g) _ h2⟩
  | reference A ih =>
    have h2 : ((A.bsound sys hwf).Inv b s L ∗ _) h := hI
    rw [(book_refines sys A).size] at h2
    exact star_mono_left (fun _ g => ih hwf _ _ _ _ g) _ h2

end AllocTy

theorem Below.post {α β : Type} {f : α → β} {c : M α} {d : M β} {Q : β → Prop} (h : Below f c d) (hd : Post d Q) :
    Post c (fun a => Q (f a)) := by
  intro w a w' e
  rcases h w with h | h
  · rw [e] at h; cases h
  · rw [bind_of_ok e] at h
    exact hd w (f a) w' h.symm

/-! ### What the states look like -/

namespace AllocTy

/-- Every `freelist` inside holds at most `p` blocks of its part, and no `cascading` inside has an idle instance behind its first. -/
def Tight (sys : Sys) : (t : AllocTy) → Nat → (t.book sys).St → Prop
  | null => fun _ _ => True
  | mallocator => fun _ _ => True
  | linear _ => fun _ _ => True
  | stack _ => fun _ _ => True
  | freelist _ _ A => fun p (s : Freelist.St ((A.book sys).St × Ledger)) => A.Tight sys p s.a.1 ∧ s.a.2.held.length ≤ p
  | fallback P F => fun p (s : (P.book sys).St × (F.book sys).St) => P.Tight sys p s.1 ∧ F.Tight sys p s.2
  | segragator _ P F => fun p (s : (P.book sys).St × (F.book sys).St) => P.Tight sys p s.1 ∧ F.Tight sys p s.2
  | cascading A => fun p (s : List (Node (A.book sys).St)) => idle s ≤ 0 ∧ ∀ nd ∈ s, A.Tight sys p nd.st
  | overflow A => fun p (s : Overflow.St (A.book sys).St) => A.Tight sys p s.a
  | threaded A => A.Tight sys
  | shared A => fun p (s : Nat × (A.book sys).St) => A.Tight sys p s.2
  | reference A => A.Tight sys

theorem init_tight (sys : Sys) (p : Nat) : ∀ (t : AllocTy) (b : Nat), Post ((t.book sys).init b) (t.Tight sys p)
  | null, _ => fun _ _ _ _ => trivial
  | mallocator, _ => fun _ _ _ _ => trivial
  | linear _, _ => fun _ _ _ _ => trivial
  | stack _, _ => fun _ _ _ _ => trivial
  | freelist _ _ A, b => Post.bind (R := fun s : (A.book sys).St × Ledger => A.Tight sys p s.1 ∧ s.2.held.length ≤ p)
      (Post.bind (init_tight sys p A b) fun s hs => Post.pure ⟨hs, Nat.zero_le _⟩) fun s hs => Post.pure hs
  | fallback P F, b => Post.bind (init_tight sys p P b) fun s hs => Post.bind (init_tight sys p F _) fun s' hs' => Post.pure ⟨hs, hs'⟩
  | segragator _ P F, b => Post.bind (init_tight sys p P b) fun s hs => Post.bind (init_tight sys p F _) fun s' hs' => Post.pure ⟨hs, hs'⟩
  | cascading _, _ => Post.pure ⟨Nat.le_refl _, fun _ h => absurd h List.not_mem_nil⟩
  | overflow A, b => Post.bind (init_tight sys p A b) fun s hs => Post.pure hs
  | threaded A, b => init_tight sys p A b
  | shared A, b => by
    refine Post.bind' fun q => ?_
    by_cases hq : q = 0
    · rw [if_pos hq]; intro w a w' e; unfold M.nullDeref at e; split at e <;> cases e
    · rw [if_neg hq]
      exact Post.bind (init_tight sys p A q) fun s hs => Post.pure hs
  | reference A, b => init_tight sys p A b

theorem dealloc_tight (sys : Sys) (q : Nat) (t : AllocTy) (s : (t.book sys).St) (p n : Nat) (ht : t.Tight sys q s) :
    Post ((t.book sys).dealloc s p n) (t.Tight sys q) := by
  induction t generalizing p n with
  | null => exact fun _ _ _ _ => trivial
  | mallocator => exact fun _ _ _ _ => trivial
  | linear _ => exact fun _ _ _ _ => trivial
  | stack _ => exact fun _ _ _ _ => trivial
  | freelist m M A ih => exact Post.cond (fun _ => Post.bind' fun _ => Post.pure ht) (fun _ => Post.pure ht)
  | fallback P F ihP ihF =>
    exact Post.cond (fun _ => Post.bind (ihP _ _ _ ht.1) fun _ h => Post.pure ⟨h, ht.2⟩)
      (fun _ => Post.bind (ihF _ _ _ ht.2) fun _ h => Post.pure ⟨ht.1, h⟩)
  | segragator T P F ihP ihF =>
    exact Post.cond (fun _ => Post.bind (ihP _ _ _ ht.1) fun _ h => Post.pure ⟨h, ht.2⟩)
      (fun _ => Post.bind (ihF _ _ _ ht.2) fun _ h => Post.pure ⟨ht.1, h⟩)
  | cascading A ih =>
    intro w s' w' e
    refine ⟨dealloc_idle sys _ p n 0 s ht.1 w s' w' e, ?_⟩
    have h2 := ht.2
    rcases cascading_dealloc_cases sys _ p n false s s' w w' e with rfl | ⟨pre, nd, post, st, w1, rfl, _, _, e1, rfl⟩
    · exact h2
    · have h3 : A.Tight sys q st := ih nd.st p n (h2 nd (by simp)) w st w1 e1
      intro x hx
      have hx' : x ∈ pre ∨ x = ⟨nd.addr, st, decr nd.cnt⟩ ∨ x ∈ post := by
        revert hx
        split <;> intro hx
        · exact (List.mem_append.1 hx).imp_right .inr
        · exact (List.mem_append.1 hx).imp_right List.mem_cons.1
      rcases hx' with hx | rfl | hx
      · exact h2 x (by simp [hx])
      · exact h3
      · exact h2 x (by simp [hx])
  | overflow A ih =>
    refine Post.cond (fun _ => ?_) (fun _ => Post.pure ht)
    exact Post.bind' fun _ => Post.bind' fun _ => Post.bind' fun _ => Post.bind (ih _ _ _ ht) fun _ h => Post.pure h
  | threaded A ih => exact ih _ _ _ ht
  | shared A ih => exact Post.bind (ih _ _ _ ht) fun _ h => Post.pure h
  | reference A ih => exact ih _ _ _ ht

theorem routeGo_all (A : Allocator) (R : A.St → Prop) (g : A.St → Nat → M A.St) (hg : ∀ s p, R s → Post (g s p) R) (ev : Nat → Ev) (p : Nat)
    (s : List (Node A.St)) (h : ∀ nd ∈ s, R nd.st) : Post (routeGo A g ev p s) (fun s' => ∀ nd ∈ s', R nd.st) := by
  induction s with
  | nil => exact Post.bind' fun _ => Post.pure fun _ h => absurd h List.not_mem_nil
  | cons nd rest ih =>
    unfold routeGo
    refine Post.cond (fun _ => Post.bind (hg _ _ (h nd (by simp))) fun st hst => Post.pure ?_)
      (fun _ => Post.bind (ih fun x hx => h x (by simp [hx])) fun r hr => Post.pure ?_)
    · intro x hx
      rcases List.mem_cons.1 hx with rfl | hx
      · exact hst
      · exact h x (by simp [hx])
    · intro x hx
      rcases List.mem_cons.1 hx with rfl | hx
      · exact h _ (by simp)
      · exact hr x hx

theorem route2_tight {P F : Allocator} {RP : P.St → Prop} {RF : F.St → Prop} {cP : Option (P.St → Nat → M P.St)} {cF : Option (F.St → Nat → M F.St)}
    (hP : ∀ f, cP = some f → ∀ s p, RP s → Post (f s p) RP) (hF : ∀ f, cF = some f → ∀ s p, RF s → Post (f s p) RF) (ev : Nat → Ev)
    (f : P.St × F.St → Nat → M (P.St × F.St)) (hf : route2 P F cP cF ev = some f) (s : P.St × F.St) (p : Nat) (h : RP s.1 ∧ RF s.2) :
    Post (f s p) (fun s' => RP s'.1 ∧ RF s'.2) := by
  unfold route2 at hf
  split at hf
  · cases hf
    dsimp only
    split
    · exact Post.bind (hP _ rfl _ _ h.1) fun _ h1 => Post.pure ⟨h1, h.2⟩
    · exact Post.bind (hF _ rfl _ _ h.2) fun _ h1 => Post.pure ⟨h.1, h1⟩
    · exact Post.bind' fun _ => Post.pure h
  · cases hf

theorem construct_tight (sys : Sys) (q : Nat) (t : AllocTy) (f : (t.book sys).St → Nat → M (t.book sys).St)
    (hf : (t.book sys).construct = some f) (s : (t.book sys).St) (p : Nat) (ht : t.Tight sys q s) : Post (f s p) (t.Tight sys q) := by
  induction t generalizing p with
  | null => exact fun _ _ _ _ => trivial
  | mallocator => exact fun _ _ _ _ => trivial
  | linear _ => exact fun _ _ _ _ => trivial
  | stack _ => exact fun _ _ _ _ => trivial
  | freelist m M A ih =>
    obtain ⟨g, hg, rfl⟩ := Option.map_eq_some_iff.1 hf
    obtain ⟨k, hk, rfl⟩ := Option.map_eq_some_iff.1 hg
    exact Post.bind (R := fun a : (A.book sys).St × Ledger => A.Tight sys q a.1 ∧ a.2.held.length ≤ q)
      (Post.bind (ih k hk _ _ ht.1) fun _ h => Post.pure ⟨h, ht.2⟩) fun _ h => Post.pure h
  | fallback P F ihP ihF => exact route2_tight (fun g hg s p h => ihP g hg s p h) (fun g hg s p h => ihF g hg s p h) _ f hf s p ht
  | segragator T P F ihP ihF => exact route2_tight (fun g hg s p h => ihP g hg s p h) (fun g hg s p h => ihF g hg s p h) _ f hf s p ht
  | cascading A ih =>
    obtain ⟨g, hg, rfl⟩ := Option.map_eq_some_iff.1 hf
    intro w s' w' e
    exact ⟨routeGo_idle _ g _ p 0 s ht.1 w s' w' e, routeGo_all _ _ g (fun s p h => ih g hg s p h) _ p s ht.2 w s' w' e⟩
  | overflow A ih =>
    cases hf
    dsimp only
    split
    · rename_i c hc
      exact Post.bind (ih c hc _ _ ht) fun _ h => Post.pure h
    · exact Post.bind' fun _ => Post.pure ht
  | threaded A ih => exact ih f hf s p ht
  | shared A ih =>
    obtain ⟨g, hg, rfl⟩ := Option.map_eq_some_iff.1 hf
    exact Post.bind (ih g hg _ _ ht) fun _ h => Post.pure h
  | reference A ih => exact ih f hf s p ht

theorem destroy_tight (sys : Sys) (q : Nat) (t : AllocTy) (f : (t.book sys).St → Nat → M (t.book sys).St)
    (hf : (t.book sys).destroy = some f) (s : (t.book sys).St) (p : Nat) (ht : t.Tight sys q s) : Post (f s p) (t.Tight sys q) := by
  induction t generalizing p with
  | null => exact fun _ _ _ _ => trivial
  | mallocator => exact fun _ _ _ _ => trivial
  | linear _ => exact fun _ _ _ _ => trivial
  | stack _ => exact fun _ _ _ _ => trivial
  | freelist m M A ih =>
    obtain ⟨g, hg, rfl⟩ := Option.map_eq_some_iff.1 hf
    obtain ⟨k, hk, rfl⟩ := Option.map_eq_some_iff.1 hg
    exact Post.bind (R := fun a : (A.book sys).St × Ledger => A.Tight sys q a.1 ∧ a.2.held.length ≤ q)
      (Post.bind (ih k hk _ _ ht.1) fun _ h => Post.pure ⟨h, ht.2⟩) fun _ h => Post.pure h
  | fallback P F ihP ihF => exact route2_tight (fun g hg s p h => ihP g hg s p h) (fun g hg s p h => ihF g hg s p h) _ f hf s p ht
  | segragator T P F ihP ihF => exact route2_tight (fun g hg s p h => ihP g hg s p h) (fun g hg s p h => ihF g hg s p h) _ f hf s p ht
  | cascading A ih =>
    obtain ⟨g, hg, rfl⟩ := Option.map_eq_some_iff.1 hf
    intro w s' w' e
    exact ⟨routeGo_idle _ g _ p 0 s ht.1 w s' w' e, routeGo_all _ _ g (fun s p h => ih g hg s p h) _ p s ht.2 w s' w' e⟩
  | overflow A ih =>
    cases hf
    dsimp only
    split
    · rename_i c hc
      exact Post.bind (ih c hc _ _ ht) fun _ h => Post.pure h
    · exact Post.bind' fun _ => Post.pure ht
  | threaded A ih => exact ih f hf s p ht
  | shared A ih =>
    obtain ⟨g, hg, rfl⟩ := Option.map_eq_some_iff.1 hf
    exact Post.bind (ih g hg _ _ ht) fun _ h => Post.pure h
  | reference A ih => exact ih f hf s p ht

/-- An emptied object with books serves what a new one serves. -/
theorem book_serves (sys : Sys) (t : AllocTy) (hwf : t.WF) (ho : t.hasOwns = true) (b : Nat) (s : (t.book sys).St) (h : Heap)
    (hI : (t.bsound sys hwf).Inv b s [] h) (n : Nat) (hn : n + t.margin < W64) (hs : t.freshServes n) :
    Post ((t.book sys).alloc s n) (fun r => r.1 ≠ 0) :=
  ((book_refines sys t).alloc s n).post (empty_serves sys t hwf ho b _ h (unbook_inv sys t hwf b s [] h hI) n hn hs)

theorem newNode_tight (sys : Sys) (q : Nat) (A : AllocTy) : Post (newNode sys (A.book sys)) (fun nd => A.Tight sys q nd.st) := by
  refine Post.bind (R := fun r : Nat × (A.book sys).St => A.Tight sys q r.2) ?_ (fun r hr => Post.pure hr)
  refine Post.bind' fun a => ?_
  by_cases ha : a = 0
  · rw [if_pos ha]; intro w a w' e; unfold M.nullDeref at e; split at e <;> cases e
  · rw [if_neg ha]
    exact Post.bind (init_tight sys q A a) fun s hs => Post.pure hs

theorem alloc_tight (sys : Sys) (q : Nat) (t : AllocTy) (hwf : t.WF) (b : Nat) (s : (t.book sys).St) (L : List (Nat × Nat)) (h : Heap)
    (hI : (t.bsound sys hwf).Inv b s L h) (n : Nat) (hn : n + t.margin < W64) (hth : t.Thrifty n) (ht : t.Tight sys q s) :
    Post ((t.book sys).alloc s n) (fun r => (r.1 ≠ 0 → L.length + 1 ≤ q) → t.Tight sys q r.2) := by
  induction t generalizing b L h n with
  | null => exact fun _ _ _ _ _ => trivial
  | mallocator => exact fun _ _ _ _ _ => trivial
  | linear _ => exact fun _ _ _ _ _ => trivial
  | stack _ => exact fun _ _ _ _ _ => trivial
  | freelist m M A ih =>
    obtain ⟨_, R, ⟨hl, _⟩, h2, h3, _, rfl, ⟨⟨hp, _⟩, h4⟩, _⟩ := hI
    simp only [AllocTy.margin] at hn
    refine Post.cond (fun hc => Post.cond (fun _ => ?_) (fun hz => ?_)) (fun _ => Post.pure fun _ => ht)
    · exact Post.bind' fun _ => Post.pure fun _ => ht
    · have hR : R = [] := by
        cases R with
        | nil => rfl
        | cons c R => exact absurd (hl.1.symm.trans (Decidable.not_not.1 hz)) hl.2.1
      subst hR
      have hlen := hp.length_eq
      simp only [List.map_nil, List.append_nil, List.length_map] at hlen h4
      have h5 := ih hwf.1 _ _ _ _ h4 M (by omega) (hth hc.1 hc.2) ht.1
      refine Post.bind (R := fun r : Nat × ((A.book sys).St × Ledger) => (r.1 ≠ 0 → L.length + 1 ≤ q) →
        A.Tight sys q r.2.1 ∧ r.2.2.held.length ≤ q) ?_ (fun r hr => Post.pure hr)
      refine Post.bind h5 (fun r hr => Post.pure fun h6 => ⟨hr (by rwa [List.length_map]), ?_⟩)
      simp only [Ledger.got]
      split
      · exact ht.2
      · rename_i h0
        have := h6 h0
        simp only [List.length_cons]; omega
  | fallback P F ihP ihF =>
    obtain ⟨_, L1, L2, hp, h1, h2, _, rfl, h3, h4⟩ := hI
    simp only [AllocTy.margin] at hn
    have hlen := hp.length_eq
    rw [List.length_append] at hlen
    refine Post.bind (ihP hwf.1 _ _ _ _ h3 n (by omega) hth.1 ht.1) (fun r hr => Post.cond (fun hz => ?_) (fun hz => ?_))
    · refine Post.bind (ihF hwf.2.1 _ _ _ _ h4 n (by omega) hth.2 ht.2) (fun x hx => Post.pure fun hc => ⟨hr (absurd hz), hx fun h0 => ?_⟩)
      have := hc h0
      omega
    · exact Post.pure fun hc => ⟨hr fun h0 => by have := hc h0; omega, ht.2⟩
  | segragator T P F ihP ihF =>
    obtain ⟨_, h1, h2, _, rfl, h3, h4⟩ := hI
    simp only [AllocTy.margin] at hn
    have hlen := (lo_hi_perm T L).length_eq
    rw [List.length_append] at hlen
    refine Post.cond (fun hT => ?_) (fun hT => ?_)
    · exact Post.bind (ihP hwf.1 _ _ _ _ h3 n (by omega) (hth.1 hT) ht.1) (fun r hr => Post.pure fun hc =>
        ⟨hr fun h0 => by have := hc h0; omega, ht.2⟩)
    · exact Post.bind (ihF hwf.2 _ _ _ _ h4 n (by omega) (hth.2 (by omega)) ht.2) (fun r hr => Post.pure fun hc =>
        ⟨ht.1, hr fun h0 => by have := hc h0; omega⟩)
  | cascading A ih =>
    obtain ⟨_, NL, ⟨e, hNL, hp⟩, h1, h2, _, rfl, hN, _⟩ := hI
    have hlen := hp.length_eq
    have hsz : MallocFits sys.plat (nodeSize (A.book sys)) := fun _ => by
      have := hwf.2.2.2; simp only [Cascading.nodeSize, AllocTy.book_size]; omega
    -- the front node
    have hfront : ∀ (nd : Node (A.book sys).St) rest, idle (nd :: rest) ≤ 0 → (∀ x ∈ nd :: rest, A.Tight sys q x.st) →
        (∃ b h L', (A.bsound sys hwf.1).Inv b nd.st L' h ∧ nd.cnt = L'.length ∧ L'.length ≤ L.length) → (∀ m, A.maxOf = some m → n ≤ m) →
        Post (allocFront sys (A.book sys) nd rest n) (fun r => (r.1 ≠ 0 → L.length + 1 ≤ q) →
          idle r.2 ≤ 0 ∧ ∀ x ∈ r.2, A.Tight sys q x.st) := by
      rintro nd rest hi hall ⟨b', g, L', hI', hcnt, hle⟩ hmax
      have hfs : A.freshServes n := 
        Decidable.byContradiction fun hfs => hth.1 ⟨hfs, hmax⟩
      have h5 := ih hwf.1 _ _ _ _ hI' n hn hth.2 (hall nd (by simp))
      have h6 : Post ((A.book sys).alloc nd.st n) (fun r => nd.cnt = 0 → r.1 ≠ 0) := by
        by_cases hc : nd.cnt = 0
        · have : L' = [] := List.length_eq_zero_iff.1 (hcnt.symm.trans hc)
          subst this
          exact (book_serves sys A hwf.1 hwf.2.1 _ _ _ hI' n hn hfs).mono fun _ h _ => h
        · exact fun _ _ _ _ h => absurd h hc
      refine Post.bind (R := fun r : Nat × (A.book sys).St => ((r.1 ≠ 0 → L'.length + 1 ≤ q) → A.Tight sys q r.2) ∧ (nd.cnt = 0 → r.1 ≠ 0))
        (fun w r w' e => ⟨h5 w r w' e, h6 w r w' e⟩) (fun r hr => Post.cond (fun hz => ?_) (fun hz => ?_))
      · have hcn : nd.cnt ≠ 0 := fun hc => hr.2 hc hz
        have hrest : ∀ x ∈ rest, A.Tight sys q x.st := fun x hx => hall x (by simp [hx])
        refine Post.bind (R := fun nd2 : Node (A.book sys).St => A.Tight sys q nd2.st ∧ ∃ b h, (A.bsound sys hwf.1).Inv b nd2.st [] h)
          (fun w nd2 w' e => ⟨newNode_tight sys q A w nd2 w' e, _, (newNode_fresh sys (A.bsound sys hwf.1) hsz w nd2 w' e).2⟩) ?_
        rintro nd2 ⟨ht2, b2, g2, hI2⟩
        refine Post.bind (ih hwf.1 _ _ _ _ hI2 n hn hth.2 ht2) (fun x hx => Post.pure fun hc => ⟨?_, ?_⟩)
        · have hi' : rest.countP (fun nd => decide (nd.cnt = 0)) ≤ 0 := hi
          simp only [idle, List.tail_cons, List.countP_cons, decide_eq_true_eq, if_neg hcn]
          exact hi'
        · intro y hy
          rcases List.mem_cons.1 hy with rfl | hy
          · exact hx fun h0 => by have := hc h0; simp only [List.length_nil]; omega
          · rcases List.mem_cons.1 hy with rfl | hy
            · exact hr.1 (absurd hz)
            · exact hrest y hy
      · refine Post.pure fun hc => ⟨hi, ?_⟩
        intro y hy
        rcases List.mem_cons.1 hy with rfl | hy
        · exact hr.1 fun h0 => by have := hc h0; omega
        · exact hall y (by simp [hy])
    refine Post.bind (R := fun s' : List (Node (A.book sys).St) => (idle s' ≤ 0 ∧ ∀ x ∈ s', A.Tight sys q x.st) ∧ ∀ nd rest, s' = nd :: rest →
      ∃ b h L', (A.bsound sys hwf.1).Inv b nd.st L' h ∧ nd.cnt = L'.length ∧ L'.length ≤ L.length) ?_ ?_
    · unfold ensure
      cases NL with
      | nil =>
        subst e
        refine Post.bind (R := fun nd : Node (A.book sys).St => A.Tight sys q nd.st ∧ nd.cnt = 0 ∧ ∃ h, (A.bsound sys hwf.1).Inv nd.addr nd.st [] h)
          (fun w nd w' e => ⟨newNode_tight sys q A w nd w' e, newNode_fresh sys (A.bsound sys hwf.1) hsz w nd w' e⟩) ?_
        rintro nd ⟨h5, h6, h7, h8⟩
        refine Post.pure ⟨⟨by simp [idle], ?_⟩, ?_⟩
        · intro x hx
          rw [List.mem_singleton.1 hx]
          exact h5
        · intro nd' rest e
          cases e
          exact ⟨_, _, _, h8, h6, Nat.zero_le _⟩
      | cons x NL =>
        subst e
        refine Post.pure ⟨ht, ?_⟩
        intro nd rest e
        cases e
        obtain ⟨h', hI'⟩ := nodes_mem hN x (by simp)
        refine ⟨_, _, _, hI', (hNL x (by simp)).1, ?_⟩
        rw [hlen, List.flatMap_cons, List.length_append]
        omega
    · rintro s' ⟨⟨hi, hall⟩, hfr⟩
      cases s' with
      | nil => exact Post.ub
      | cons nd rest =>
        dsimp only
        have hmx : (A.book sys).maxSize = (A.denote sys).maxSize.map fun g s => g (A.unbook sys s) := (book_refines sys A).maxSize
        cases hm : (A.denote sys).maxSize with
        | none =>
          rw [hm, Option.map_none] at hmx
          rw [hmx]
          refine hfront nd rest hi hall (hfr nd rest rfl) (fun m hm' => ?_)
          have h1 := A.max_isSome sys
          have h2 := maxOf_isSome A
          rw [hm] at h1
          rw [hm', ← h1] at h2
          cases h2
        | some f =>
          rw [hm, Option.map_some] at hmx
          rw [hmx]
          dsimp only
          obtain ⟨m, h1, h2⟩ := max_some sys A f hm
          cases hf : f (A.unbook sys nd.st) with
          | none => exact Post.ub
          | some m' =>
            have := h2 _ _ hf
            subst this
            dsimp only
            refine Post.cond (fun _ => Post.pure fun _ => ⟨hi, hall⟩) (fun hc => ?_)
            exact hfront nd rest hi hall (hfr nd rest rfl) (fun m hm' => by rw [h1] at hm'; cases hm'; omega)
  | overflow A ih =>
    obtain ⟨_, h1, h2, _, rfl, h3, _⟩ := hI
    simp only [AllocTy.margin] at hn
    have e : addW n 128 = n + 128 := by simp only [addW]; omega
    have h5 := ih hwf _ _ _ _ h3 (n + 128) (by omega) hth ht
    rw [List.length_map] at h5
    refine Post.bind (e ▸ h5) (fun r hr => Post.cond (fun hz => Post.pure fun _ => hr (absurd hz)) (fun _ => ?_))
    exact Post.bind' fun _ => Post.bind' fun _ => Post.pure fun hc => hr fun _ => hc (by simp)
  | threaded A ih =>
    obtain ⟨h1, h2, _, rfl, h3, _⟩ := hI
    exact ih hwf _ _ _ _ h3 n hn hth ht
  | shared A ih =>
    obtain ⟨_, h1, h2, _, rfl, h3, _⟩ := hI
    exact Post.bind (ih hwf.1 _ _ _ _ h3 n hn hth ht) fun r hr => Post.pure hr
  | reference A ih =>
    obtain ⟨h1, h2, _, rfl, h3, _⟩ := hI
    exact ih hwf _ _ _ _ h3 n hn hth ht

end AllocTy

/-! ### Counting `malloc` blocks -/

/-- at most `k` `malloc` blocks of at most `m` bytes in this piece of memory -/
def Heap.Few (k m : Nat) (h : Heap) : Prop := AtMost k m fun a n => h.t a = some n

theorem Heap.Few.add {k1 k2 m : Nat} {h1 h2 : Heap} (f1 : h1.Few k1 m) (f2 : h2.Few k2 m) : (h1.add h2).Few (k1 + k2) m := by
  obtain ⟨l1, e1, g1⟩ := f1
  obtain ⟨l2, e2, g2⟩ := f2
  refine ⟨l1 ++ l2, by rw [List.length_append]; omega, fun a n h => ?_⟩
  replace h : (h1.add h2).t a = some n := h
  rw [Heap.add_t] at h
  rcases Option.or_eq_some_iff.1 h with h | ⟨_, h⟩
  · exact ⟨List.mem_append_left _ (g1 a n h).1, (g1 a n h).2⟩
  · exact ⟨List.mem_append_right _ (g2 a n h).1, (g2 a n h).2⟩

theorem Heap.Few.mono {k k' m m' : Nat} {h : Heap} (f : h.Few k m) (hk : k ≤ k') (hm : m ≤ m') : h.Few k' m' := by
  obtain ⟨l, e, g⟩ := f
  exact ⟨l, by omega, fun a n h => ⟨(g a n h).1, by have := (g a n h).2; omega⟩⟩

theorem few_none {m : Nat} {h : Heap} (e : ∀ x, h.t x = none) : h.Few 0 m :=
  ⟨[], Nat.le_refl _, fun a n h => by have h := (e a).symm.trans h; cases h⟩

/-- memory without `malloc` blocks next to it does not count -/
theorem few_star {k m : Nat} {P Q : HProp} {h : Heap} (hs : (P ∗ Q) h) (hP : ∀ g, P g → g.Few k m) (hQ : ∀ g, Q g → ∀ x, g.t x = none) :
    h.Few k m := by
  obtain ⟨h1, h2, _, rfl, h3, h4⟩ := hs
  exact (hP _ h3).add (few_none (hQ _ h4))

theorem none_star {P Q : HProp} {h : Heap} (hs : (P ∗ Q) h) (hP : ∀ g, P g → ∀ x, g.t x = none) (hQ : ∀ g, Q g → ∀ x, g.t x = none) :
    ∀ x, h.t x = none := by
  obtain ⟨h1, h2, _, rfl, h3, h4⟩ := hs
  intro x
  rw [Heap.add_t, hP _ h3, hQ _ h4]; rfl

theorem blocksV_none {R : List (Nat × List UInt8)} : ∀ {h : Heap}, blocksV R h → ∀ x, h.t x = none := by
  induction R with
  | nil => intro h hh x; rw [show h = Heap.empty from hh]; rfl
  | cons c R ih => exact fun hh => none_star hh (fun _ g => g.1) fun _ g => ih g

theorem slack_none {Max : Nat} {L : List (Nat × Nat)} : ∀ {h : Heap}, Freelist.slack Max L h → ∀ x, h.t x = none := by
  induction L with
  | nil => intro h hh x; rw [show h = Heap.empty from hh]; rfl
  | cons c R ih => exact fun hh => none_star hh (fun _ g => g.1) fun _ g => ih g

theorem guards_none {L : List (Nat × Nat)} : ∀ {h : Heap}, Overflow.guards L h → ∀ x, h.t x = none := by
  induction L with
  | nil => intro h hh x; rw [show h = Heap.empty from hh]; rfl
  | cons c R ih => exact fun hh => none_star hh (fun _ g => g.1) fun _ g => none_star g (fun _ g => g.1) fun _ g => ih g

theorem tok_few {a n m : Nat} {h : Heap} (hh : tok a n h) (hm : n ≤ m) : h.Few 1 m := by
  refine ⟨[a], Nat.le_refl _, fun x k hk => ?_⟩
  replace hk := (hh.2 x).symm.trans hk
  split at hk
  · cases hk; exact ⟨by simp [*], hm⟩
  · cases hk

theorem mTok_few {plat : Plat} {p n m : Nat} {h : Heap} (hh : mTok plat p n h) (hm : n + 16 ≤ m) : h.Few 1 m := by
  cases plat with
  | direct => exact tok_few hh (by omega)
  | manual =>
    obtain ⟨r, _, hh⟩ := hh
    exact few_star hh (fun _ g => tok_few g hm) fun _ g => none_star g (fun _ g => g.1) fun _ g =>
      none_star g (fun _ g => g.1) fun _ g => g.1

theorem mToks_few {plat : Plat} {L : List (Nat × Nat)} {m : Nat} (hm : ∀ c ∈ L, c.2 ≤ m) : ∀ {h : Heap}, mToks plat L h → h.Few L.length (m + 16) := by
  induction L with
  | nil => intro h hh; rw [show h = Heap.empty from hh]; exact few_none fun _ => rfl
  | cons c L ih =>
    rintro h ⟨h1, h2, _, rfl, h3, h4⟩
    have := hm c (by simp)
    rw [List.length_cons, Nat.add_comm]
    exact (mTok_few h3 (by omega)).add (ih (fun c hc => hm c (by simp [hc])) h4)

namespace AllocTy

/-- A tight object holds few `malloc` blocks. -/
theorem tight_few (sys : Sys) (q : Nat) (t : AllocTy) (hwf : t.WF) (b : Nat) (s : (t.book sys).St) (L : List (Nat × Nat)) (h : Heap)
    (hI : (t.bsound sys hwf).Inv b s L h) (ht : t.Tight sys q s) (hL : L.length ≤ q) (m : Nat) (hm : ∀ c ∈ L, c.2 ≤ m) :
    h.Few (t.holds q) (t.largest m) := by
  induction t generalizing b L h m with
  | null => rw [show h = Heap.empty from hI.2]; exact few_none fun _ => rfl
  | mallocator => exact (mToks_few hm hI.2).mono hL (Nat.le_refl _)
  | linear S => exact few_none hI.2.2.1
  | stack S => exact few_none hI.2.2.1
  | freelist a M A ih =>
    obtain ⟨_, R, ⟨hl, _⟩, h3⟩ := hI
    refine few_star h3 (fun g hg => ih hwf.1 _ _ _ _ hg.2 ht.1 ?_ M ?_) fun _ g => none_star g (fun _ g => slack_none g) fun _ g =>
      none_star g (fun _ g => blocksV_none g) fun _ g => g.1
    · rw [← hg.1.1.length_eq]; exact ht.2
    · intro c hc
      rcases List.mem_append.1 hc with hc | hc
      · obtain ⟨x, _, rfl⟩ := List.mem_map.1 hc
        exact Nat.le_refl _
      · rw [Freelist.linked_map hl] at hc
        obtain ⟨x, _, rfl⟩ := List.mem_map.1 hc
        exact Nat.le_refl _
  | fallback P F ihP ihF =>
    obtain ⟨_, L1, L2, hp, h1, h2, _, rfl, h3, h4⟩ := hI
    have hlen := hp.length_eq
    rw [List.length_append] at hlen
    exact ((ihP hwf.1 _ _ _ _ h3 ht.1 (by omega) m fun c hc => hm c (hp.mem_iff.2 (List.mem_append_left _ hc))).mono (Nat.le_refl _) (Nat.le_max_left _ _)).add
      ((ihF hwf.2.1 _ _ _ _ h4 ht.2 (by omega) m fun c hc => hm c (hp.mem_iff.2 (List.mem_append_right _ hc))).mono (Nat.le_refl _) (Nat.le_max_right _ _))
  | segragator T P F ihP ihF =>
    obtain ⟨_, h1, h2, _, rfl, h3, h4⟩ := hI
    have hp := lo_hi_perm T L
    have hlen := hp.length_eq
    rw [List.length_append] at hlen
    exact ((ihP hwf.1 _ _ _ _ h3 ht.1 (by omega) m fun c hc => hm c (hp.mem_iff.2 (List.mem_append_left _ hc))).mono (Nat.le_refl _) (Nat.le_max_left _ _)).add
      ((ihF hwf.2 _ _ _ _ h4 ht.2 (by omega) m fun c hc => hm c (hp.mem_iff.2 (List.mem_append_right _ hc))).mono (Nat.le_refl _) (Nat.le_max_right _ _))
  | cascading A ih =>
    obtain ⟨_, NL, ⟨e, hNL, hp⟩, h3⟩ := hI
    have hlen := hp.length_eq
    have hall : ∀ x ∈ NL, A.Tight sys q x.1.st ∧ x.2.length ≤ q ∧ ∀ c ∈ x.2, c.2 ≤ m := by
      intro x hx
      refine ⟨ht.2 x.1 (e ▸ List.mem_map_of_mem hx), ?_, fun c hc => hm c (hp.mem_iff.2 (List.mem_flatMap.2 ⟨x, hx, hc⟩))⟩
      have := (List.sublist_flatten_of_mem (List.mem_map_of_mem (f := Prod.snd) hx)).length_le
      rw [← List.flatMap_def] at this
      omega
    have hcount : NL.length ≤ q + 1 := by
      have hi : idle (NL.map Prod.fst) ≤ 0 := e ▸ ht.1
      cases NL with
      | nil => simp
      | cons x NL =>
        have hi' : (NL.map Prod.fst).countP (fun nd : Node (A.book sys).St => decide (nd.cnt = 0)) ≤ 0 := hi
        have : NL.length ≤ (NL.flatMap Prod.snd).length := by
          have hpos : ∀ y ∈ NL, 1 ≤ y.2.length := by
            intro y hy
            have h1 := (hNL y (List.mem_cons_of_mem _ hy)).1
            have h2 := List.countP_eq_zero.1 (Nat.le_zero.1 hi') y.1 (List.mem_map_of_mem hy)
            simp only [decide_eq_true_eq] at h2
            omega
          clear hi hi' hlen hp hNL e hall h3
          induction NL with
          | nil => simp
          | cons y NL ih =>
            have h1 := ih fun z hz => hpos z (List.mem_cons_of_mem _ hz)
            have h2 := hpos y (by simp)
            simp only [List.flatMap_cons, List.length_append, List.length_cons]
            omega
        simp only [List.flatMap_cons, List.length_append, List.length_cons] at hlen ⊢
        omega
    refine few_star h3 (fun g hg => ?_) fun _ g => g.1
    have key : g.Few (NL.length * (1 + A.holds q)) (max (A.size + 32) (A.largest m)) := by
      clear hcount hlen hp hNL e h3
      induction NL generalizing g with
      | nil =>
        have hg' : g = Heap.empty := hg
        subst hg'
        exact (few_none fun _ => rfl).mono (Nat.zero_le _) (Nat.le_refl _)
      | cons x NL ih2 =>
        obtain ⟨a1, a2, _, rfl, ⟨b1, b2, _, rfl, h6, h7⟩, h8⟩ := hg
        have hx := hall x (by simp)
        have f1 := (ih hwf.1 _ _ _ _ h6 hx.1 hx.2.1 m hx.2.2).mono (Nat.le_refl _) (Nat.le_max_right (A.size + 32) _)
        have f2 : b2.Few 1 (max (A.size + 32) (A.largest m)) := by
          rw [star_comm] at h7
          refine few_star h7 (fun _ g => mTok_few g ?_) fun _ g => g.1
          simp only [nodeSize, book_size]; omega
        refine ((f1.add f2).add (ih2 (fun y hy => hall y (by simp [hy])) a2 h8)).mono ?_ (Nat.le_refl _)
        rw [List.length_cons, Nat.succ_mul]
        omega
    exact key.mono (Nat.mul_le_mul_right _ hcount) (Nat.le_refl _)
  | overflow A ih =>
    obtain ⟨_, h3⟩ := hI
    refine few_star h3 (fun g hg => ih hwf _ _ _ _ hg ht (by rwa [List.length_map]) (m + 128) ?_) fun _ g =>
      none_star g (fun _ g => guards_none g) fun _ g => g.1
    intro c hc
    obtain ⟨x, hx, rfl⟩ := List.mem_map.1 hc
    exact Nat.add_le_add_right (hm x hx) 128
  | threaded A ih =>
    have h2 : ((A.bsound sys hwf).Inv b s L ∗ _) h := hI
    exact few_star h2 (fun g hg => ih hwf _ _ _ _ hg ht hL m hm) fun _ g => g.1
  | shared A ih =>
    obtain ⟨_, g1, g2, _, rfl, h3, h4⟩ := hI
    refine ((ih hwf.1 _ _ _ _ h3 ht hL m hm).mono (Nat.le_refl _) (Nat.le_max_right _ _)).add ?_
    obtain ⟨k1, k2, _, rfl, h5, h6⟩ := h4
    have := (few_none (m := max (A.size + 32) (A.largest m)) h5.1).add (few_star h6 (k := 1) (m := max (A.size + 32) (A.largest m))
      (fun _ g => mTok_few g (by simp only [nodeSize, book_size]; omega)) fun _ g => g.1)
    exact this.mono (by omega) (Nat.le_refl _)
  | reference A ih =>
    have h2 : ((A.bsound sys hwf).Inv b s L ∗ _) h := hI
    exact few_star h2 (fun g hg => ih hwf _ _ _ _ hg ht hL m hm) fun _ g => g.1

end AllocTy

theorem foreignV_toks {R : List (Nat × List UInt8)} : ∀ {h : Heap}, foreignV R h → ∀ a n, h.t a = some n → (a, n) ∈ R.map blk := by
  induction R with
  | nil => intro h hh a n e; rw [show h = Heap.empty from hh] at e; cases e
  | cons c R ih =>
    rintro h ⟨h1, h2, _, rfl, ⟨g1, g2, _, rfl, h3, h4⟩, h5⟩ a n e
    rw [Heap.add_t] at e
    rcases Option.or_eq_some_iff.1 e with e | ⟨_, e⟩
    · rw [Heap.add_t] at e
      rcases Option.or_eq_some_iff.1 e with e | ⟨_, e⟩
      · rw [h3.2 a] at e
        split at e
        · cases e; subst_vars; simp [blk]
        · cases e
      · rw [h4.1 a] at e; cases e
    · exact List.mem_cons_of_mem _ (ih h5 a n e)

/-! ### C102 -/

/-- the states reached are tight -/
theorem play_tight (sys : Sys) (t : AllocTy) (hwf : t.WF) (b : Nat) (w : World) (hs : Storage w b t.size) (ops : List Op) (hops : Sane t ops)
    (hth : ∀ n, Op.allocate n ∈ ops → t.Thrifty n) (q : Nat)
    (hpeak : ∀ pre c w', pre <+: ops → play sys (t.book sys) b pre w = .ok c w' → c.live.length ≤ q)
    (c : Client (t.book sys)) (w' : World) (hrun : play sys (t.book sys) b ops w = .ok c w') : t.Tight sys q c.st := by
  induction ops using snocRec generalizing c w' with
  | nil =>
    obtain ⟨s, w1, e1, e2⟩ := bind_ok hrun
    cases e2
    exact t.init_tight sys q b w s _ e1
  | append_singleton ops o ih =>
    obtain ⟨c1, w1, r1, r2⟩ := play_snoc_ok hrun
    have hops1 : Sane t ops := fun n hn => hops n (List.mem_append_left _ hn)
    have ih1 := ih hops1 (fun n hn => hth n (List.mem_append_left _ hn)) (fun pre c w' hp => hpeak pre c w' (hp.trans (List.prefix_append _ _))) c1 w1 r1
    have hend := hpeak _ c w' (List.prefix_refl _) hrun
    by_cases ho : ∃ n, o = .allocate n
    · obtain ⟨n, rfl⟩ := ho
      obtain ⟨h, hf, _, _, hI⟩ := sound_reach sys (t.bsound sys hwf) b w (by rw [t.book_size]; exact hs) ops (hops1.fits sys hwf) r1
      have h1 := t.alloc_tight sys q hwf b c1.st _ h hI n (hops n (by simp)).2.2 (hth n (by simp)) ih1
      obtain ⟨r, w2, e1, e2⟩ := bind_ok r2
      have h2 := h1 w1 r w2 e1
      by_cases hz : r.1 = 0
      · rw [if_pos hz] at e2
        cases e2
        exact h2 (absurd hz)
      · rw [if_neg hz] at e2
        obtain ⟨bs, w3, e3, e4⟩ := bind_ok e2
        cases e4
        exact h2 fun _ => by rw [List.length_map]; exact hend
    · exact step_state sys (t.Tight sys q) c1 o ih1 (fun n e => absurd ⟨n, e⟩ ho) (fun p n => t.dealloc_tight sys q c1.st p n ih1)
        (fun f hf p => t.construct_tight sys q f hf c1.st p ih1) (fun f hf p => t.destroy_tight sys q f hf c1.st p ih1) w1 c w' r2

/-- **C102.** However long a program runs: if at most `p` blocks of an allocator are in use at any one time, if those in use now
have at most `m` bytes each, and if no request is hopeless for a `cascading` inside, the `malloc` blocks of the process are the
ones from before, the ones others have got, and at most `holds p` blocks of at most `largest m` bytes. The bound is a fixed
number for the type of the allocator: it does not depend on the number of calls. -/
theorem C102_footprint_bounded_by_peak (sys : Sys) (t : AllocTy) (hwf : t.WF) (b : Nat) (w : World) (hs : Storage w b t.size)
    (ops : List Op) (hops : Sane t ops) (hth : ∀ n, Op.allocate n ∈ ops → t.Thrifty n) (p : Nat)
    (hpeak : ∀ pre c w', pre <+: ops → play sys (t.denote sys) b pre w = .ok c w' → c.live.length ≤ p)
    (c : Client (t.denote sys)) (w' : World) (hrun : play sys (t.denote sys) b ops w = .ok c w') (m : Nat)
    (hm : ∀ x ∈ c.live, x.2.length ≤ m) :
    AtMost (t.holds p) (t.largest m) fun a n =>
      w'.heap.t a = some n ∧ w.heap.t a ≠ some n ∧ (a, n) ∉ c.foreign.map blk := by
  have hs' : Storage w b (t.book sys).objSize := by rw [t.book_size]; exact hs
  have same : ∀ o, Sane t o → (play sys (t.book sys) b o >>= fun c => pure (c.map (t.unbook sys))) w = play sys (t.denote sys) b o w :=
    fun o ho => checks_hold sys (t.bsound sys hwf) (t.book_refines sys) b w hs' o (ho.fits sys hwf)
  have hpeak' : ∀ pre c w', pre <+: ops → play sys (t.book sys) b pre w = .ok c w' → c.live.length ≤ p := by
    intro pre c w' hp e
    have h1 := same pre fun n hn => hops n (hp.subset hn)
    rw [bind_of_ok e] at h1
    exact hpeak pre _ w' hp h1.symm
  rw [← same ops hops] at hrun
  obtain ⟨c0, w0, e0, e1⟩ := bind_ok hrun
  cases e1
  have ht := play_tight sys t hwf b w hs ops hops hth p hpeak' c0 _ e0
  have hend := hpeak' ops c0 _ (List.prefix_refl _) e0
  obtain ⟨h0, hf, hd, he, hb, _, hft⟩ := storage_split hs'
  have h1 := play_spec sys (t.bsound sys hwf) b ops hs'.1 hs'.2.1 hs'.2.2.1 (hops.fits sys hwf) w h0 hf hd he hb
  rw [e0] at h1
  obtain ⟨⟨h', _, he', g1, g2, _, rfl, hI, g3, g4, _, rfl, hB, hF⟩, _⟩ := h1
  obtain ⟨l, hl1, hl2⟩ := t.tight_few sys p hwf b c0.st _ g1 hI ht (by rw [List.length_map]; exact hend) m (by
    intro x hx
    obtain ⟨y, hy, rfl⟩ := List.mem_map.1 hx
    exact hm y hy)
  refine ⟨l, hl1, fun a n ⟨k1, k2, k3⟩ => ?_⟩
  rw [he', Heap.add_t] at k1
  rcases Option.or_eq_some_iff.1 k1 with k1 | ⟨_, k1⟩
  · rw [Heap.add_t] at k1
    rcases Option.or_eq_some_iff.1 k1 with k1 | ⟨_, k1⟩
    · exact hl2 a n k1
    · rw [Heap.add_t] at k1
      rcases Option.or_eq_some_iff.1 k1 with k1 | ⟨_, k1⟩
      · rw [blocksV_none hB a] at k1; cases k1
      · exact absurd (foreignV_toks hF a n k1) k3
  · rw [hft] at k1
    exact absurd k1 k2

/-! ### Loops -/

theorem step_count (sys : Sys) {A : Allocator} (c : Client A) (o : Op) (n : Nat) (h : c.live.length ≤ n) :
    Post (c.step sys o) (fun c' => c'.live.length ≤ o.count n) := by
  cases o with
  | allocate k =>
    refine Post.bind' fun r => Post.cond (fun _ => Post.pure (Nat.le_succ_of_le h)) (fun _ => Post.bind' fun bs => Post.pure ?_)
    exact Nat.succ_le_succ h
  | deallocate i =>
    simp only [Client.step]
    cases i with
    | zero =>
      cases hl : c.live with
      | nil => exact Post.pure (by rw [hl]; exact Nat.zero_le _)
      | cons x l =>
        refine Post.bind' fun s => Post.pure ?_
        rw [hl] at h
        simp only [List.eraseIdx_cons_zero, Op.count, List.length_cons] at h ⊢
        omega
    | succ i =>
      cases c.live[i + 1]? with
      | none => exact Post.pure h
      | some x => exact Post.bind' fun s => Post.pure (Nat.le_trans (List.length_eraseIdx_le _ _) h)
  | write i off v =>
    simp only [Client.step]
    cases c.live[i]? with
    | none => exact Post.pure h
    | some x => exact Post.cond (fun _ => Post.bind' fun _ => Post.pure (by rw [List.length_set]; exact h)) (fun _ => Post.pure h)
  | construct i off =>
    simp only [Client.step]
    cases c.live[i]? with
    | none => exact Post.pure h
    | some x => exact Post.bind' fun _ => Post.pure h
  | destroy i off =>
    simp only [Client.step]
    cases c.live[i]? with
    | none => exact Post.pure h
    | some x => exact Post.bind' fun _ => Post.pure h
  | foreign k =>
    exact Post.bind' fun _ => Post.cond (fun _ => Post.pure h) (fun _ => Post.bind' fun _ => Post.pure h)

theorem run_count (sys : Sys) {A : Allocator} (ops : List Op) (c : Client A) (n : Nat) (h : c.live.length ≤ n) :
    Post (c.run sys ops) (fun c' => c'.live.length ≤ countFrom n ops) := by
  induction ops generalizing c n with
  | nil => exact Post.pure h
  | cons o ops ih => exact Post.bind (step_count sys c o n h) fun c' h' => ih c' _ h'

theorem le_peakFrom (n : Nat) (ops : List Op) : n ≤ peakFrom n ops := by
  cases ops with
  | nil => exact Nat.le_refl _
  | cons o ops => exact Nat.le_max_left _ _

theorem count_le_peak (n : Nat) (pre post : List Op) : countFrom n pre ≤ peakFrom n (pre ++ post) := by
  induction pre generalizing n with
  | nil => exact le_peakFrom n _
  | cons o pre ih => exact Nat.le_trans (ih _) (Nat.le_max_right _ _)

theorem play_peak (sys : Sys) (A : Allocator) (b : Nat) (w : World) (ops pre : List Op) (hp : pre <+: ops) (c : Client A) (w' : World)
    (e : play sys A b pre w = .ok c w') : c.live.length ≤ peakFrom 0 ops := by
  obtain ⟨s, w1, _, e2⟩ := bind_ok e
  obtain ⟨post, rfl⟩ := hp
  exact Nat.le_trans (run_count sys pre _ 0 (Nat.le_refl _) w1 c w' e2) (count_le_peak _ _ _)

theorem peakFrom_append (n : Nat) (a b : List Op) : peakFrom n (a ++ b) = max (peakFrom n a) (peakFrom (countFrom n a) b) := by
  induction a generalizing n with
  | nil => exact (Nat.max_eq_right (le_peakFrom n b)).symm
  | cons o a ih =>
    show max n (peakFrom _ (a ++ b)) = max (max n (peakFrom _ a)) _
    rw [ih, Nat.max_assoc]
    rfl

theorem rounds_count (body : List Op) (h : countFrom 0 body = 0) (k : Nat) : countFrom 0 (List.replicate k body).flatten = 0 := by
  induction k with
  | zero => rfl
  | succ k ih =>
    rw [List.replicate_succ, List.flatten_cons]
    unfold countFrom at h ih ⊢
    rw [List.foldl_append, h, ih]

theorem rounds_peak (body : List Op) (h : countFrom 0 body = 0) (k : Nat) : peakFrom 0 (List.replicate k body).flatten ≤ peakFrom 0 body := by
  induction k with
  | zero => exact Nat.zero_le _
  | succ k ih =>
    rw [List.replicate_succ, List.flatten_cons, peakFrom_append, h]
    exact Nat.max_le.2 ⟨Nat.le_refl _, ih⟩

theorem holds_mono (t : AllocTy) : ∀ {p q : Nat}, p ≤ q → t.holds p ≤ t.holds q := by
  induction t with
  | null => exact fun _ => Nat.le_refl _
  | mallocator => exact fun h => h
  | linear _ => exact fun _ => Nat.le_refl _
  | stack _ => exact fun _ => Nat.le_refl _
  | freelist _ _ A ih => exact fun h => ih h
  | fallback P F ihP ihF => exact fun h => Nat.add_le_add (ihP h) (ihF h)
  | segragator _ P F ihP ihF => exact fun h => Nat.add_le_add (ihP h) (ihF h)
  | cascading A ih => exact fun h => Nat.mul_le_mul (by omega) (by have := ih h; omega)
  | overflow A ih => exact fun h => ih h
  | threaded A ih => exact fun h => ih h
  | shared A ih => exact fun h => Nat.add_le_add_right (ih h) 1
  | reference A ih => exact fun h => ih h

/-- **C102, loops.** A program that repeats the same work, giving back in each round what it got in that round, needs no more
memory after a million rounds than the work of one round allows: for every number `k` of rounds the allocator holds at most
`holds p` blocks from `malloc`, where `p` is the number of blocks in use at once during one round. -/
theorem C102_any_number_of_rounds (sys : Sys) (t : AllocTy) (hwf : t.WF) (b : Nat) (w : World) (hs : Storage w b t.size)
    (body : List Op) (hops : Sane t body) (hth : ∀ n, Op.allocate n ∈ body → t.Thrifty n) (hback : countFrom 0 body = 0) (k : Nat)
    (c : Client (t.denote sys)) (w' : World) (hrun : play sys (t.denote sys) b (List.replicate k body).flatten w = .ok c w') :
    c.live = [] ∧ AtMost (t.holds (peakFrom 0 body)) (t.largest 0) fun a n =>
      w'.heap.t a = some n ∧ w.heap.t a ≠ some n ∧ (a, n) ∉ c.foreign.map blk := by
  have hmem : ∀ o, o ∈ (List.replicate k body).flatten → o ∈ body := by
    intro o ho
    obtain ⟨l, hl, ho⟩ := List.mem_flatten.1 ho
    rwa [(List.mem_replicate.1 hl).2] at ho
  have hlive : c.live = [] := by
    obtain ⟨s, w1, _, e2⟩ := bind_ok hrun
    have := run_count sys _ _ 0 (Nat.le_refl _) w1 c w' e2
    rw [rounds_count body hback] at this
    exact List.length_eq_zero_iff.1 (Nat.le_zero.1 this)
  refine ⟨hlive, ?_⟩
  have h1 := C102_footprint_bounded_by_peak sys t hwf b w hs _ (fun n hn => hops n (hmem _ hn)) (fun n hn => hth n (hmem _ hn)) _
    (fun pre c w' hp e => play_peak sys _ b w _ pre hp c w' e) c w' hrun 0 (by rw [hlive]; simp)
  obtain ⟨l, e, g⟩ := h1
  exact ⟨l, Nat.le_trans e (holds_mono t (rounds_peak body hback k)), g⟩

/-! Non-trivial cases. -/

instance AllocTy.decThrifty : (t : AllocTy) → (n : Nat) → Decidable (t.Thrifty n)
  | null, _ => isTrue trivial
  | mallocator, _ => isTrue trivial
  | linear _, _ => isTrue trivial
  | stack _, _ => isTrue trivial
  | freelist m M A, n => have := decThrifty A M; by unfold AllocTy.Thrifty; infer_instance
  | fallback P F, n => have := decThrifty P n; have := decThrifty F n; by unfold AllocTy.Thrifty; infer_instance
  | segragator T P F, n => have := decThrifty P n; have := decThrifty F n; by unfold AllocTy.Thrifty; infer_instance
  | cascading A, n => have := decThrifty A n; by unfold AllocTy.Thrifty; infer_instance
  | overflow A, n => decThrifty A (n + 128)
  | threaded A, n => decThrifty A n
  | shared A, n => decThrifty A n
  | reference A, n => decThrifty A n

/-- small blocks recycled by a freelist, the rest from a cascade of linear allocators, behind a shared handle -/
def footTy : AllocTy := .shared (.segragator 32 (.freelist 0 32 .mallocator) (.fallback (.cascading (.linear 128)) .mallocator))

/-- one round: five blocks, at most three at once -/
def footBody : List Op :=
  [.allocate 20, .allocate 100, .deallocate 0, .allocate 32, .allocate 90, .write 0 3 7, .deallocate 0, .deallocate 0, .allocate 64,
    .deallocate 0, .deallocate 0]

example : footTy.WF := by decide

example : Sane footTy footBody ∧ (∀ n, Op.allocate n ∈ footBody → footTy.Thrifty n) ∧ countFrom 0 footBody = 0 ∧ peakFrom 0 footBody = 3 := by
  refine ⟨?_, ?_, by decide, by decide⟩ <;> intro n hn <;>
    simp only [footBody, List.mem_cons, Op.allocate.injEq, reduceCtorEq, List.not_mem_nil, or_false, false_or] at hn <;>
    rcases hn with rfl | rfl | rfl | rfl | rfl <;> decide

/-- the bound: 1 for the shared object, 3 for the freelist, 4 instances of the cascade, 3 for the last allocator -/
example : footTy.holds 3 = 11 ∧ footTy.largest 0 = 176 := by decide

example : Storage (demoWorld footTy.size) 4096 footTy.size := demoStorage _ (by decide)

/-- after two and after six rounds the same four blocks are held: the shared object, two recycled ones, one instance -/
example : ∀ k ∈ [2, 6], (play (demoSys .direct) (footTy.denote (demoSys .direct)) 4096 (List.replicate k footBody).flatten
    (demoWorld footTy.size)).test (fun c w' => c.live.isEmpty &&
      ((List.range 100).filter fun k => (w'.heap.t (0x100000 + k * 0x10000)).isSome).length == 4) = true := by decide +kernel

/-- A request that is hopeless for the cascade is not thrifty (each such request adds an instance, `C16_hopeless_adds`). -/
example : ¬ (AllocTy.cascading (.linear 20)).Thrifty 20 ∧ (AllocTy.cascading (.linear 20)).Thrifty 16 := by decide

end KTL
