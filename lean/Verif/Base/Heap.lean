/-
Byte-addressed memory and the separation-logic assertions used in proofs.

Models the part of the C++ abstract machine the library relies on: memory is a finite-content
partial map from addresses to bytes (`b`), plus the bookkeeping of the C heap (`t a = some n` means
"`a` was returned by `malloc(n)` and has not been freed").
-/
namespace KTL

/-- Addresses (`uintptr_t`). -/
macro "Addr" : term => `(Nat)

/-- 2^64: `size_t` / `uintptr_t` arithmetic is modulo this number (LP64 platforms). -/
notation "W64" => (18446744073709551616 : Nat)

/-- `size_t` addition. C++ machine, not library code. -/
def addW (a b : Nat) : Nat := (a + b) % W64
/-- `size_t` subtraction. C++ machine, not library code. -/
def subW (a b : Nat) : Nat := (a + (W64 - b % W64)) % W64
/-- `size_t` multiplication. C++ machine, not library code. -/
def mulW (a b : Nat) : Nat := (a * b) % W64

/-- Memory. `b x = none`: the byte is not allocated (access is undefined behaviour).
`t a = some n`: `a` is the start of a live `malloc` block of `n` bytes. C++ machine, not library code. -/
structure Heap where
  b : Addr → Option UInt8
  t : Addr → Option Nat

namespace Heap

@[ext] theorem ext' {h1 h2 : Heap} (hb : ∀ x, h1.b x = h2.b x) (ht : ∀ x, h1.t x = h2.t x) :
    h1 = h2 := by
  cases h1; cases h2; simp only [Heap.mk.injEq]; exact ⟨funext hb, funext ht⟩

/-- Proof helper, not code. -/
def empty : Heap := ⟨fun _ => none, fun _ => none⟩

/-- Proof helper, not code. -/
def disj (h1 h2 : Heap) : Prop :=
  (∀ x, h1.b x = none ∨ h2.b x = none) ∧ (∀ x, h1.t x = none ∨ h2.t x = none)

/-- Proof helper, not code. -/
def add (h1 h2 : Heap) : Heap :=
  ⟨fun x => (h1.b x).or (h2.b x), fun x => (h1.t x).or (h2.t x)⟩

@[simp] theorem add_b (h1 h2 : Heap) (x) : (h1.add h2).b x = (h1.b x).or (h2.b x) := rfl
@[simp] theorem add_t (h1 h2 : Heap) (x) : (h1.add h2).t x = (h1.t x).or (h2.t x) := rfl
@[simp] theorem empty_b (x) : empty.b x = none := rfl
@[simp] theorem empty_t (x) : empty.t x = none := rfl

theorem disj_comm {h1 h2 : Heap} (h : disj h1 h2) : disj h2 h1 :=
  ⟨fun x => (h.1 x).symm, fun x => (h.2 x).symm⟩

theorem disj_empty (h : Heap) : disj h empty := ⟨fun _ => Or.inr rfl, fun _ => Or.inr rfl⟩
theorem empty_disj (h : Heap) : disj empty h := ⟨fun _ => Or.inl rfl, fun _ => Or.inl rfl⟩

@[simp] theorem add_empty (h : Heap) : h.add empty = h := by ext x <;> simp
@[simp] theorem empty_add (h : Heap) : empty.add h = h := by ext x <;> simp

theorem add_comm {h1 h2 : Heap} (h : disj h1 h2) : h1.add h2 = h2.add h1 := by
  apply Heap.ext'
  · intro x; rcases h.1 x with e | e <;> simp [e]
  · intro x; rcases h.2 x with e | e <;> simp [e]

theorem add_assoc (h1 h2 h3 : Heap) : (h1.add h2).add h3 = h1.add (h2.add h3) := by
  apply Heap.ext' <;> intro x <;> simp [Option.or_assoc]

theorem disj_add_left {h1 h2 h3 : Heap} : disj (h1.add h2) h3 ↔ disj h1 h3 ∧ disj h2 h3 := by
  constructor
  · intro h
    refine ⟨⟨fun x => ?_, fun x => ?_⟩, ⟨fun x => ?_, fun x => ?_⟩⟩
    all_goals first
      | (have := h.1 x; simp only [add_b, Option.or_eq_none_iff] at this; grind)
      | (have := h.2 x; simp only [add_t, Option.or_eq_none_iff] at this; grind)
  · intro h
    refine ⟨fun x => ?_, fun x => ?_⟩
    · have h1 := h.1.1 x; have h2 := h.2.1 x
      simp only [add_b, Option.or_eq_none_iff]; grind
    · have h1 := h.1.2 x; have h2 := h.2.2 x
      simp only [add_t, Option.or_eq_none_iff]; grind

theorem disj_add_right {h1 h2 h3 : Heap} : disj h1 (h2.add h3) ↔ disj h1 h2 ∧ disj h1 h3 := by
  constructor
  · intro h
    have := disj_add_left.1 (disj_comm h)
    exact ⟨disj_comm this.1, disj_comm this.2⟩
  · intro h
    exact disj_comm (disj_add_left.2 ⟨disj_comm h.1, disj_comm h.2⟩)

end Heap

/-- Assertions about a piece of memory. Proof helper, not code. -/
abbrev HProp := Heap → Prop

/-- Separating conjunction. Proof helper, not code. -/
def star (P Q : HProp) : HProp :=
  fun h => ∃ h1 h2, Heap.disj h1 h2 ∧ h = h1.add h2 ∧ P h1 ∧ Q h2

infixr:60 " ∗ " => star

/-- No memory at all. Proof helper, not code. -/
def emp : HProp := fun h => h = Heap.empty

/-- A pure fact and no memory. Proof helper, not code. -/
def lift (p : Prop) : HProp := fun h => p ∧ h = Heap.empty

theorem star_comm (P Q : HProp) : (P ∗ Q) = (Q ∗ P) := by
  funext h; apply propext; constructor <;>
  · rintro ⟨h1, h2, hd, rfl, hp, hq⟩
    exact ⟨h2, h1, Heap.disj_comm hd, Heap.add_comm hd, hq, hp⟩

theorem star_assoc (P Q R : HProp) : ((P ∗ Q) ∗ R) = (P ∗ (Q ∗ R)) := by
  funext h; apply propext; constructor
  · rintro ⟨h12, h3, hd, rfl, ⟨h1, h2, hd', rfl, hp, hq⟩, hr⟩
    have := Heap.disj_add_left.1 hd
    exact ⟨h1, h2.add h3, Heap.disj_add_right.2 ⟨hd', this.1⟩, Heap.add_assoc .., hp, h2, h3,
      this.2, rfl, hq, hr⟩
  · rintro ⟨h1, h23, hd, rfl, hp, h2, h3, hd', rfl, hq, hr⟩
    have := Heap.disj_add_right.1 hd
    exact ⟨h1.add h2, h3, Heap.disj_add_left.2 ⟨this.2, hd'⟩, (Heap.add_assoc ..).symm,
      ⟨h1, h2, this.1, rfl, hp, hq⟩, hr⟩

instance : Std.Associative star := ⟨star_assoc⟩
instance : Std.Commutative star := ⟨star_comm⟩

theorem star_left_comm (P Q R : HProp) : (P ∗ (Q ∗ R)) = (Q ∗ (P ∗ R)) := by
  rw [← star_assoc, star_comm P Q, star_assoc]

@[simp] theorem star_emp (P : HProp) : (P ∗ emp) = P := by
  funext h; apply propext; constructor
  · rintro ⟨h1, h2, hd, rfl, hp, rfl⟩; simpa using hp
  · intro hp; exact ⟨h, Heap.empty, Heap.disj_empty h, by simp, hp, rfl⟩

@[simp] theorem emp_star (P : HProp) : (emp ∗ P) = P := by rw [star_comm, star_emp]

theorem star_mono {P P' Q Q' : HProp} (hp : ∀ h, P h → P' h) (hq : ∀ h, Q h → Q' h) :
    ∀ h, (P ∗ Q) h → (P' ∗ Q') h := by
  rintro h ⟨h1, h2, hd, rfl, a, b⟩; exact ⟨h1, h2, hd, rfl, hp _ a, hq _ b⟩

theorem star_mono_left {P P' Q : HProp} (hp : ∀ h, P h → P' h) :
    ∀ h, (P ∗ Q) h → (P' ∗ Q) h := star_mono hp (fun _ => id)

theorem star_mono_right {P Q Q' : HProp} (hq : ∀ h, Q h → Q' h) :
    ∀ h, (P ∗ Q) h → (P ∗ Q') h := star_mono (fun _ => id) hq

theorem star_exists {α} (P : α → HProp) (Q : HProp) :
    ((fun h => ∃ x, P x h) ∗ Q) = fun h => ∃ x, (P x ∗ Q) h := by
  funext h; apply propext; constructor
  · rintro ⟨h1, h2, hd, e, ⟨x, hp⟩, hq⟩; exact ⟨x, h1, h2, hd, e, hp, hq⟩
  · rintro ⟨x, h1, h2, hd, e, hp, hq⟩; exact ⟨h1, h2, hd, e, ⟨x, hp⟩, hq⟩

theorem star_and {p : Prop} (P : HProp) (Q : HProp) :
    ((fun h => p ∧ P h) ∗ Q) = fun h => p ∧ (P ∗ Q) h := by
  funext h; apply propext; constructor
  · rintro ⟨h1, h2, hd, e, ⟨x, hp⟩, hq⟩; exact ⟨x, h1, h2, hd, e, hp, hq⟩
  · rintro ⟨x, h1, h2, hd, e, hp, hq⟩; exact ⟨h1, h2, hd, e, ⟨x, hp⟩, hq⟩

theorem star_and' {p : Prop} (P : HProp) (Q : HProp) :
    (P ∗ (fun h => p ∧ Q h)) = fun h => p ∧ (P ∗ Q) h := by
  rw [star_comm, star_and, star_comm]

theorem star_exists' {α} (P : α → HProp) (Q : HProp) :
    (Q ∗ (fun h => ∃ x, P x h)) = fun h => ∃ x, (Q ∗ P x) h := by
  rw [star_comm, star_exists]; funext h; simp only [star_comm]

theorem lift_star (p : Prop) (Q : HProp) : (lift p ∗ Q) = fun h => p ∧ Q h := by
  have : lift p = fun h => p ∧ emp h := rfl
  rw [this, star_and, emp_star]

/-! ### Ownership of bytes and of malloc tokens -/

/-- Exactly the bytes at the addresses in `S`, with any contents. Proof helper, not code. -/
def bytesS (S : Addr → Prop) : HProp :=
  fun h => (∀ x, h.t x = none) ∧ ∀ x, (h.b x).isSome = true ↔ S x

/-- Exactly the `n` bytes starting at `p`, with any contents. Proof helper, not code. -/
def bytes (p n : Nat) : HProp := bytesS (fun x => p ≤ x ∧ x < p + n)

/-- Exactly the bytes starting at `p`, with contents `bs`. Proof helper, not code. -/
def bytesV (p : Addr) (bs : List UInt8) : HProp :=
  fun h => (∀ x, h.t x = none) ∧ ∀ x, h.b x = if p ≤ x then bs[x - p]? else none

/-- The right to `free` the malloc block of `n` bytes at `a`. Proof helper, not code. -/
def tok (a n : Nat) : HProp :=
  fun h => (∀ x, h.b x = none) ∧ ∀ x, h.t x = if x = a then some n else none

theorem isSome_eq_none {α} {o : Option α} : ¬ (o.isSome = true) ↔ o = none := by
  cases o <;> simp

theorem bytesS_congr {S T : Addr → Prop} (h : ∀ x, S x ↔ T x) : bytesS S = bytesS T := by
  have : S = T := funext fun x => propext (h x)
  rw [this]

theorem bytesS_empty {S : Addr → Prop} (hS : ∀ x, ¬ S x) : bytesS S = emp := by
  funext h; apply propext; constructor
  · intro ⟨ht, hb⟩
    apply Heap.ext'
    · intro x; have := mt (hb x).1 (hS x); simpa using this
    · intro x; simpa using ht x
  · rintro rfl
    exact ⟨fun _ => rfl, fun x => by simp [hS x]⟩

theorem bytesS_union {S T : Addr → Prop} (hd : ∀ x, S x → T x → False) :
    (bytesS S ∗ bytesS T) = bytesS (fun x => S x ∨ T x) := by
  funext h; apply propext; constructor
  · rintro ⟨h1, h2, d, rfl, ⟨t1, b1⟩, t2, b2⟩
    refine ⟨fun x => by simp [t1, t2], fun x => ?_⟩
    show _ ↔ (S x ∨ T x)
    rw [← b1 x, ← b2 x]
    simp
  · rintro ⟨ht, hb⟩
    classical
    refine ⟨⟨fun x => if S x then h.b x else none, fun _ => none⟩,
            ⟨fun x => if S x then none else h.b x, fun _ => none⟩, ?_, ?_, ?_, ?_⟩
    · refine ⟨fun x => ?_, fun x => Or.inl rfl⟩
      by_cases hs : S x <;> simp [hs]
    · apply Heap.ext'
      · intro x; by_cases hs : S x <;> simp [hs]
      · intro x; simp [ht]
    · refine ⟨fun _ => rfl, fun x => ?_⟩
      by_cases hs : S x
      · simp [hs, (hb x).2 (Or.inl hs)]
      · simp [hs]
    · refine ⟨fun _ => rfl, fun x => ?_⟩
      by_cases hs : S x
      · simp only [hs, if_true, Option.isSome_none, Bool.false_eq_true, false_iff]
        exact fun ht => hd x hs ht
      · simp only [hs, if_false, hb x, false_or]

theorem bytesS_disj {S T : Addr → Prop} {h : Heap} (hh : (bytesS S ∗ bytesS T) h) :
    ∀ x, S x → T x → False := by
  obtain ⟨h1, h2, d, rfl, ⟨_, b1⟩, _, b2⟩ := hh
  intro x hs ht
  have e1 := (b1 x).2 hs; have e2 := (b2 x).2 ht
  rcases d.1 x with e | e <;> simp_all

theorem bytes_zero (p : Nat) : bytes p 0 = emp := bytesS_empty (fun x h => by omega)

theorem bytes_split (p n m : Nat) : bytes p (n + m) = (bytes p n ∗ bytes (p + n) m) := by
  rw [bytes, bytes, bytes, bytesS_union (fun x h1 h2 => by omega)]
  exact bytesS_congr (fun x => by omega)

theorem bytesV_length {p bs h} (hh : bytesV p bs h) : bytes p bs.length h := by
  refine ⟨hh.1, fun x => ?_⟩
  rw [hh.2 x]
  show _ ↔ (p ≤ x ∧ x < p + bs.length)
  split
  · simp only [Option.isSome_iff_ne_none, ne_eq, List.getElem?_eq_none_iff]; omega
  · simp; omega

theorem bytes_exists {p n h} (hh : bytes p n h) : ∃ bs : List UInt8, bs.length = n ∧ bytesV p bs h := by
  obtain ⟨ht, hb⟩ := hh
  replace hb : ∀ x, (h.b x).isSome = true ↔ (p ≤ x ∧ x < p + n) := hb
  refine ⟨(List.range n).map (fun i => (h.b (p + i)).getD 0), by simp, ht, fun x => ?_⟩
  split
  · rename_i hx
    by_cases hn : x - p < n
    · have : (h.b x).isSome = true := (hb x).2 (by omega)
      rw [List.getElem?_map, List.getElem?_range hn]
      have e : p + (x - p) = x := by omega
      simp only [Option.map_some, e]
      cases hbx : h.b x <;> simp_all
    · have : h.b x = none := isSome_eq_none.1 (mt (hb x).1 (by omega))
      rw [this, List.getElem?_map, List.getElem?_eq_none (by simpa using hn)]; rfl
  · exact isSome_eq_none.1 (mt (hb x).1 (by omega))

theorem bytes_eq_exists (p n : Nat) :
    bytes p n = fun h => ∃ bs : List UInt8, bs.length = n ∧ bytesV p bs h := by
  funext h; apply propext; constructor
  · exact bytes_exists
  · rintro ⟨bs, rfl, hb⟩; exact bytesV_length hb

theorem bytesV_nil (p : Nat) : bytesV p [] = emp := by
  funext h; apply propext; constructor
  · intro ⟨ht, hb⟩; apply Heap.ext'
    · intro x; simp [hb x]
    · intro x; simp [ht]
  · rintro rfl; exact ⟨fun _ => rfl, fun x => by simp⟩

theorem bytesV_append (p : Nat) (xs ys : List UInt8) :
    bytesV p (xs ++ ys) = (bytesV p xs ∗ bytesV (p + xs.length) ys) := by
  funext h; apply propext; constructor
  · intro ⟨ht, hb⟩
    refine ⟨⟨fun x => if p ≤ x then xs[x - p]? else none, fun _ => none⟩,
            ⟨fun x => if p + xs.length ≤ x then ys[x - (p + xs.length)]? else none, fun _ => none⟩,
            ⟨fun x => ?_, fun x => Or.inl rfl⟩, ?_, ⟨fun _ => rfl, fun x => rfl⟩,
            ⟨fun _ => rfl, fun x => rfl⟩⟩
    · by_cases h1 : p + xs.length ≤ x
      · left; simp; omega
      · right; simp; omega
    · apply Heap.ext'
      · intro x
        rw [hb x]; simp only [Heap.add_b]
        by_cases h0 : p ≤ x
        · by_cases h1 : p + xs.length ≤ x
          · rw [List.getElem?_append_right (by omega)]
            have : x - p - xs.length = x - (p + xs.length) := by omega
            have e : xs[x-p]? = none := by rw [List.getElem?_eq_none_iff]; omega
            simp [h0, h1, this, e]
          · rw [List.getElem?_append_left (by omega)]
            have h1' : ¬ (p + xs.length ≤ x) := h1
            simp [h0, h1']
        · have h1' : ¬ (p + xs.length ≤ x) := by omega
          simp [h0, h1']
      · intro x; simp [ht]
  · rintro ⟨h1, h2, d, rfl, ⟨t1, b1⟩, t2, b2⟩
    refine ⟨fun x => by simp [t1, t2], fun x => ?_⟩
    simp only [Heap.add_b, b1 x, b2 x]
    by_cases h0 : p ≤ x
    · by_cases h1 : p + xs.length ≤ x
      · rw [List.getElem?_append_right (by omega)]
        have : x - p - xs.length = x - (p + xs.length) := by omega
        have e : xs[x-p]? = none := by rw [List.getElem?_eq_none_iff]; omega
        simp [h0, h1, this, e]
      · rw [List.getElem?_append_left (by omega)]
        have h1' : ¬ (p + xs.length ≤ x) := h1
        simp [h0, h1']
    · have h1' : ¬ (p + xs.length ≤ x) := by omega
      simp [h0, h1']

/-- Two owned bytes are never at the same address. -/
theorem star_bytes_disj {p n q m : Nat} {F : HProp} {h : Heap}
    (hh : (bytes p n ∗ bytes q m ∗ F) h) (x : Nat) (h1 : p ≤ x ∧ x < p + n) (h2 : q ≤ x ∧ x < q + m) :
    False := by
  rw [← star_assoc] at hh
  obtain ⟨h12, h3, d, rfl, h4, _⟩ := hh
  exact bytesS_disj h4 x h1 h2

end KTL
