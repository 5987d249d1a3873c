import Verif.Base.Machine

/-
The allocator "concept" of the library as a Lean structure, and the contract every allocator class
is proved to satisfy.
-/
namespace KTL

/-- An allocator class. `has_owns_v`, `has_max_size_v`, `has_construct_v`, `has_destroy_v`
(`utility/meta.h`) are modelled by the `Option`s.

* `St`: private fields (Lean values); `objSize`: `sizeof` the class (rounded to 16, including all the
  sub-objects and their buffers; simplification: exact padding is not modelled).
* `init a`: default constructor of an object stored at address `a`.
* `maxSize`: the inner `none` is undefined behaviour (null dereference in `cascading::max_size`).
* `fini`: destructor. -/
structure Allocator where
  St : Type
  objSize : Nat
  init : Nat → M St
  alloc : St → Nat → M (Nat × St)
  dealloc : St → Nat → Nat → M St
  owns : Option (St → Nat → Bool)
  maxSize : Option (St → Option Nat)
  construct : Option (St → Nat → M St)
  destroy : Option (St → Nat → M St)
  fini : St → M Unit

/-- Blocks together with their contents. Specification, not code. -/
def blocksV : List (Nat × List UInt8) → HProp
  | [] => emp
  | b :: R => bytesV b.1 b.2 ∗ blocksV R

/-- Address and size of a block. Specification, not code. -/
def blk (b : Nat × List UInt8) : Nat × Nat := (b.1, b.2.length)

/-- What every returned block must satisfy. Specification, not code. -/
def Good (p n : Nat) : Prop := p ≠ 0 ∧ p % 16 = 0 ∧ p + n < W64

/-- The address `x` lies in one of the blocks. Specification, not code. -/
def inLive (L : List (Nat × Nat)) (x : Nat) : Prop := ∃ b ∈ L, b.1 ≤ x ∧ x < b.1 + b.2

/-- Memory as `P` says that does not overlap with `k`. Specification, not code. -/
def apart (k : Heap) (P : HProp) : HProp := fun h => Heap.disj h k ∧ P h

/-- The contract. `Fits` are the request sizes for which it is claimed (sizes so large that
`size_t` arithmetic wraps are excluded). `Inv base s L` describes the memory an allocator object at
`base` with fields `s` holds privately while the client holds the blocks `L`. `deallocate` needs none of the other blocks `R` of the client: they
only must be somewhere else (`k`). Specification, not code. -/
structure Sound (A : Allocator) (Fits : Nat → Prop) where
  Inv : Nat → A.St → List (Nat × Nat) → HProp
  objAlign : A.objSize % 16 = 0
  perm : ∀ {b s L L' h}, L.Perm L' → Inv b s L h → Inv b s L' h
  init_spec : ∀ b, b ≠ 0 → b % 16 = 0 → b + A.objSize < W64 →
    Triple (bytes b A.objSize) (A.init b) (fun s => Inv b s [])
  alloc_spec : ∀ b s L n, Fits n → n < W64 →
    Triple (Inv b s L) (A.alloc s n) (fun r h => (r.1 = 0 ∧ Inv b r.2 L h) ∨
      (Good r.1 n ∧ (Inv b r.2 ((r.1, n) :: L) ∗ bytes r.1 n) h))
  dealloc_local : ∀ b s p bs R k, blocksV R k →
    Triple (apart k (Inv b s ((p, bs.length) :: R.map blk) ∗ bytesV p bs))
      (A.dealloc s p bs.length) (fun s' => Inv b s' (R.map blk))
  live_good : ∀ {b s L h p n}, Inv b s L h → (p, n) ∈ L → Good p n ∧ Fits n
  live_max : ∀ f, A.maxSize = some f → ∀ {b s L h p n}, Inv b s L h → (p, n) ∈ L → ∀ m, f s = some m → n ≤ m
  owns_sound : ∀ f, A.owns = some f → ∀ {b s L h x}, Inv b s L h → x ≠ 0 → f s x = true →
    (h.b x).isSome = true ∨ inLive L x
  owns_complete : ∀ f, A.owns = some f → ∀ {b s L h x}, Inv b s L h → inLive L x → f s x = true
  construct_spec : ∀ c, A.construct = some c → ∀ b s L p,
    Triple (Inv b s L) (c s p) (fun s' => Inv b s' L)
  destroy_spec : ∀ c, A.destroy = some c → ∀ b s L p,
    Triple (Inv b s L) (c s p) (fun s' => Inv b s' L)
  fini_spec : ∀ b s, Triple (Inv b s []) (A.fini s) (fun _ => bytes b A.objSize)

/-! ### Memory that is somewhere else -/

theorem apart_frame {α} {k : Heap} {P F : HProp} {c : M α} {Q : α → HProp} (h : Triple (apart k P) c Q) :
    Triple (apart k (P ∗ F)) c (fun a => Q a ∗ F) :=
  (h.frame F).pre fun _ ⟨hk, h1, h2, hd, he, hp, hf⟩ =>
    ⟨h1, h2, hd, he, ⟨(Heap.disj_add_left.1 (he ▸ hk)).1, hp⟩, hf⟩

theorem apart_mono {α} {k : Heap} {P P' : HProp} {c : M α} {Q : α → HProp} (hp : ∀ h, P h → P' h) (h : Triple (apart k P') c Q) :
    Triple (apart k P) c Q :=
  h.pre fun _ ⟨hk, hh⟩ => ⟨hk, hp _ hh⟩

theorem apart_eq {α} {k : Heap} {P P' : HProp} {c : M α} {Q : α → HProp} (hp : P = P') (h : Triple (apart k P') c Q) :
    Triple (apart k P) c Q := hp ▸ h

theorem apart_and {α} {k : Heap} {p : Prop} {P : HProp} {c : M α} {Q : α → HProp} (h : p → Triple (apart k P) c Q) :
    Triple (apart k fun h => p ∧ P h) c Q :=
  fun w s hf hd he ⟨hk, hp, hh⟩ => h hp w s hf hd he ⟨hk, hh⟩

theorem apart_exists {α ι} {k : Heap} {P : ι → HProp} {c : M α} {Q : α → HProp} (h : ∀ i, Triple (apart k (P i)) c Q) :
    Triple (apart k fun h => ∃ i, P i h) c Q :=
  fun w s hf hd he ⟨hk, i, hh⟩ => h i w s hf hd he ⟨hk, hh⟩

/-- The contract of `deallocate` with all the blocks of the client. -/
theorem Sound.dealloc_spec {A : Allocator} {Fits : Nat → Prop} (hA : Sound A Fits) (b : Nat) (s : A.St) (p : Nat) (bs : List UInt8)
    (R : List (Nat × List UInt8)) :
    Triple (hA.Inv b s ((p, bs.length) :: R.map blk) ∗ bytesV p bs ∗ blocksV R)
      (A.dealloc s p bs.length) (fun s' => hA.Inv b s' (R.map blk) ∗ blocksV R) := by
  intro w h hf hd he hh
  rw [← star_assoc] at hh
  obtain ⟨h1, k, hdk, rfl, h1p, hk⟩ := hh
  exact (hA.dealloc_local b s p bs R k hk).frame (blocksV R) w _ hf hd he ⟨h1, k, hdk, rfl, ⟨hdk, h1p⟩, hk⟩

/-! ### Lemmas about lists of blocks -/

theorem blocksV_cons (b : Nat × List UInt8) (R) : blocksV (b :: R) = (bytesV b.1 b.2 ∗ blocksV R) := rfl
theorem blocksV_nil : blocksV [] = emp := rfl

theorem blocksV_append (R S) : blocksV (R ++ S) = (blocksV R ∗ blocksV S) := by
  induction R with
  | nil => simp [blocksV]
  | cons b R ih => simp only [List.cons_append, blocksV, ih, star_assoc]

theorem blocksV_perm {R S} (h : R.Perm S) : blocksV R = blocksV S := by
  induction h with
  | nil => rfl
  | cons x _ ih => simp only [blocksV, ih]
  | swap x y l => simp only [blocksV, star_left_comm]
  | trans _ _ ih1 ih2 => rw [ih1, ih2]

/-- A permutation of the image of a list is the image of a permutation of the list. -/
theorem perm_map_lift {α β} (f : α → β) {X : List β} {R : List α} (h : (R.map f).Perm X) :
    ∃ R', R.Perm R' ∧ R'.map f = X := by
  suffices ∀ {Y X : List β}, Y.Perm X → ∀ R : List α, R.map f = Y → ∃ R', R.Perm R' ∧ R'.map f = X from
    this h R rfl
  intro Y X h
  induction h with
  | nil => intro R hR; exact ⟨R, .refl _, hR⟩
  | cons x _ ih =>
    intro R hR
    match R, hR with
    | r :: R, hR =>
      simp only [List.map_cons, List.cons.injEq] at hR
      obtain ⟨R', hp, hm⟩ := ih R hR.2
      exact ⟨r :: R', hp.cons r, by simp [hR.1, hm]⟩
  | swap x y l =>
    intro R hR
    match R, hR with
    | r :: r' :: R, hR =>
      simp only [List.map_cons, List.cons.injEq] at hR
      exact ⟨r' :: r :: R, .swap _ _ _, by simp [hR]⟩
  | trans _ _ ih1 ih2 =>
    intro R hR
    obtain ⟨R1, p1, m1⟩ := ih1 R hR
    obtain ⟨R2, p2, m2⟩ := ih2 R1 m1
    exact ⟨R2, p1.trans p2, m2⟩

/-- If the blocks `R` are, up to order, `L1 ++ L2`, then `R` can be split accordingly. -/
theorem split_blocks {R : List (Nat × List UInt8)} {L1 L2 : List (Nat × Nat)}
    (h : (R.map blk).Perm (L1 ++ L2)) :
    ∃ R1 R2, R.Perm (R1 ++ R2) ∧ R1.map blk = L1 ∧ R2.map blk = L2 := by
  obtain ⟨R', hp, hm⟩ := perm_map_lift blk h
  obtain ⟨R1, R2, rfl, h1, h2⟩ := List.map_eq_append_iff.1 hm
  exact ⟨R1, R2, hp, h1, h2⟩

/-- Every byte of a block is owned. -/
theorem blocksV_isSome {R h x} (hh : blocksV R h) (hx : inLive (R.map blk) x) :
    (h.b x).isSome = true := by
  induction R generalizing h with
  | nil => obtain ⟨b, hb, _⟩ := hx; simp at hb
  | cons c R ih =>
    obtain ⟨h1, h2, hd, rfl, hc, hR⟩ := hh
    obtain ⟨b, hb, hx⟩ := hx
    simp only [List.map_cons, List.mem_cons] at hb
    rcases hb with rfl | hb
    · have := (bytesV_length hc).2 x
      simp [this.2 hx]
    · simp [ih hR ⟨b, hb, hx⟩]

/-- Separate memories do not share an address. -/
theorem disj_isSome {h1 h2 : Heap} (hd : Heap.disj h1 h2) {x : Nat} (e1 : (h1.b x).isSome = true)
    (e2 : (h2.b x).isSome = true) : False := by
  rcases hd.1 x with e | e <;> simp_all

theorem bytesV_isSome {p bs h x} (hh : bytesV p bs h) (hx : p ≤ x ∧ x < p + bs.length) :
    (h.b x).isSome = true := ((bytesV_length hh).2 x).2 hx

theorem bytes_isSome {p n h x} (hh : bytes p n h) (hx : p ≤ x ∧ x < p + n) :
    (h.b x).isSome = true := (hh.2 x).2 hx

theorem inLive_cons {b L x} : inLive (b :: L) x ↔ (b.1 ≤ x ∧ x < b.1 + b.2) ∨ inLive L x := by
  simp [inLive]

theorem inLive_append {L L' x} : inLive (L ++ L') x ↔ inLive L x ∨ inLive L' x := by
  simp only [inLive, List.mem_append]
  constructor
  · rintro ⟨b, hb | hb, h⟩
    · exact .inl ⟨b, hb, h⟩
    · exact .inr ⟨b, hb, h⟩
  · rintro (⟨b, hb, h⟩ | ⟨b, hb, h⟩)
    · exact ⟨b, .inl hb, h⟩
    · exact ⟨b, .inr hb, h⟩

theorem inLive_perm {L L' x} (h : L.Perm L') : inLive L x ↔ inLive L' x := by
  simp only [inLive, h.mem_iff]

theorem not_inLive_nil {x} : ¬ inLive [] x := by simp [inLive]

end KTL
