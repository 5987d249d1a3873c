import Mathlib.Data.List.Forall2
import Verif.Props.BinaryHeap
import Verif.Props.Array
import Verif.Props.SharedVector

/- C98: what a program with containers sees depends neither on the allocator nor on what was in memory before. -/
namespace KTL

/-! ### Specification: what is known about the bytes -/

/-- What can be said about the sequences of a program and about what it sees, without knowing the allocator or the memory:
every byte is either known or not. -/
structure KnownBytes where
  xs : List (List (List (Option UInt8)))
  seen : List (List (Option UInt8)) := []

/-- the bytes of an element that the program wrote -/
def known (x : List UInt8) : List (Option UInt8) := x.map some

/-- The meaning of the operations of vectors: only `vector(n)` and a growing `resize` make elements about which nothing is known. -/
def KnownBytes.step (sz : Nat) (c : KnownBytes) : VOp → KnownBytes
  | .new => { c with xs := c.xs ++ [[]] }
  | .newSize n => { c with xs := c.xs ++ [List.replicate n (List.replicate sz none)] }
  | .newFill n x => if x.length = sz then { c with xs := c.xs ++ [List.replicate n (known x)] } else c
  | .newRange ys => if ∀ y ∈ ys, y.length = sz then { c with xs := c.xs ++ [ys.map known] } else c
  | .copy j =>
    match c.xs[j]? with
    | some ys => { c with xs := c.xs ++ [ys] }
    | none => c
  | .move j =>
    match c.xs[j]? with
    | some ys => { c with xs := c.xs.set j [] ++ [ys] }
    | none => c
  | .copyAssign i j =>
    match c.xs[i]?, c.xs[j]? with
    | some _, some ys => if i = j then c else { c with xs := c.xs.set i ys }
    | _, _ => c
  | .moveAssign i j =>
    match c.xs[i]?, c.xs[j]? with
    | some _, some ys => { c with xs := (c.xs.set i ys).set j [] }
    | _, _ => c
  | .destroy i => { c with xs := c.xs.eraseIdx i }
  | .push i x =>
    match c.xs[i]? with
    | some ys => if x.length = sz then { xs := c.xs.set i (ys ++ [known x]), seen := c.seen ++ [known x] } else c
    | none => c
  | .pushRange i zs =>
    match c.xs[i]? with
    | some ys => if ∀ z ∈ zs, z.length = sz then { xs := c.xs.set i (ys ++ zs.map known), seen := c.seen ++ [(zs.map known).flatten] } else c
    | none => c
  | .pushFrom i j a n =>
    match c.xs[i]?, c.xs[j]? with
    | some ys, some zs => if i ≠ j ∧ a + n ≤ zs.length then
        { xs := c.xs.set i (ys ++ (zs.drop a).take n), seen := c.seen ++ [((zs.drop a).take n).flatten] } else c
    | _, _ => c
  | .erase i k =>
    match c.xs[i]? with
    | some ys => if k < ys.length then { xs := c.xs.set i (ys.eraseIdx k), seen := c.seen ++ [(ys.drop (k + 1)).flatten] } else c
    | none => c
  | .eraseRange i a n =>
    match c.xs[i]? with
    | some ys => if a + n ≤ ys.length then
        { xs := c.xs.set i (ys.take a ++ ys.drop (a + n)), seen := c.seen ++ [(ys.drop (a + n)).flatten] } else c
    | none => c
  | .resize i n =>
    match c.xs[i]? with
    | some ys => { c with xs := c.xs.set i (ys.take n ++ List.replicate (n - ys.length) (List.replicate sz none)) }
    | none => c
  | .reserve _ _ => c
  | .clear i => { c with xs := c.xs.set i [] }
  | .write i k x =>
    match c.xs[i]? with
    | some ys => if k < ys.length ∧ x.length = sz then { c with xs := c.xs.set i (ys.set k (known x)) } else c
    | none => c
  | .read i k =>
    match c.xs[i]? with
    | some ys =>
      match ys[k]? with
      | some x => { c with seen := c.seen ++ [x] }
      | none => c
    | none => c

/-- The meaning of the operations of arrays. -/
def KnownBytes.astep (sz : Nat) (c : KnownBytes) : ArrOp → KnownBytes
  | .new => c.step sz .new
  | .newSize n => c.step sz (.newSize n)
  | .newFill n x => c.step sz (.newFill n x)
  | .newRange ys => c.step sz (.newRange ys)
  | .copy j => c.step sz (.copy j)
  | .move j => c.step sz (.move j)
  | .copyAssign i j => c.step sz (.copyAssign i j)
  | .moveAssign i j => c.step sz (.moveAssign i j)
  | .destroy i => c.step sz (.destroy i)
  | .resize i n => c.step sz (.resize i n)
  | .assign i zs =>
    match c.xs[i]? with
    | some _ => if ∀ z ∈ zs, z.length = sz then { c with xs := c.xs.set i (zs.map known) } else c
    | none => c
  | .assignFrom i j a n =>
    match c.xs[i]?, c.xs[j]? with
    | some _, some zs => if i ≠ j ∧ a + n ≤ zs.length then { c with xs := c.xs.set i ((zs.drop a).take n) } else c
    | _, _ => c
  | .write i k x => c.step sz (.write i k x)
  | .read i k => c.step sz (.read i k)

/-- What is known after a program with vectors. -/
def vknown (sz : Nat) (ops : List VOp) : KnownBytes := ops.foldl (KnownBytes.step sz) ⟨[], []⟩

/-- What is known after a program with arrays. -/
def aknown (sz : Nat) (ops : List ArrOp) : KnownBytes := ops.foldl (KnownBytes.astep sz) ⟨[], []⟩

/-! ### Proof -/

/-- the bytes agree with what is known about them -/
def Agrees (k : List (Option UInt8)) (x : List UInt8) : Prop := List.Forall₂ (fun o b => ∀ y, o = some y → b = y) k x

def KnownBytes.Of (K : KnownBytes) (S : Seqs) : Prop :=
  List.Forall₂ (List.Forall₂ Agrees) K.xs S.xs ∧ List.Forall₂ Agrees K.seen S.seen

theorem agrees_known (x : List UInt8) : Agrees (known x) x := by
  induction x with
  | nil => exact .nil
  | cons b x ih => exact .cons (fun y h => Option.some.inj h) ih

theorem agrees_knowns (xs : List (List UInt8)) : List.Forall₂ Agrees (xs.map known) xs := by
  induction xs with
  | nil => exact .nil
  | cons x xs ih => exact .cons (agrees_known x) ih

theorem agrees_none {sz : Nat} {x : List UInt8} (h : x.length = sz) : Agrees (List.replicate sz none) x := by
  induction x generalizing sz with
  | nil => obtain rfl := h; exact .nil
  | cons b x ih => obtain rfl := h; exact .cons (fun y h => by cases h) (ih rfl)

theorem agrees_nones {sz n : Nat} {us : List (List UInt8)} (h : us.length = n) (hu : ∀ u ∈ us, u.length = sz) :
    List.Forall₂ Agrees (List.replicate n (List.replicate sz none)) us := by
  induction us generalizing n with
  | nil => obtain rfl := h; exact .nil
  | cons b x ih => obtain rfl := h; exact .cons (agrees_none (hu b (by simp))) (ih rfl fun u h => hu u (by simp [h]))

section
variable {β γ : Type} {r : β → γ → Prop} {l : List β} {l' : List γ}

theorem all2_append {m : List β} {m' : List γ} (h : List.Forall₂ r l l') (h' : List.Forall₂ r m m') : List.Forall₂ r (l ++ m) (l' ++ m') := by
  induction h with
  | nil => exact h'
  | cons a _ ih => exact .cons a ih

theorem all2_snoc {x : β} {y : γ} (h : List.Forall₂ r l l') (hx : r x y) : List.Forall₂ r (l ++ [x]) (l' ++ [y]) :=
  all2_append h (.cons hx .nil)

theorem all2_set {x : β} {y : γ} (h : List.Forall₂ r l l') (hx : r x y) (i : Nat) : List.Forall₂ r (l.set i x) (l'.set i y) := by
  induction h generalizing i with
  | nil => exact .nil
  | cons a h ih =>
    cases i with
    | zero => exact .cons hx h
    | succ i => exact .cons a (ih i)

theorem all2_eraseIdx (h : List.Forall₂ r l l') (i : Nat) : List.Forall₂ r (l.eraseIdx i) (l'.eraseIdx i) := by
  induction h generalizing i with
  | nil => exact .nil
  | cons a h ih =>
    cases i with
    | zero => exact h
    | succ i => exact .cons a (ih i)

theorem all2_flatten {m : List (List β)} {m' : List (List γ)} (h : List.Forall₂ (List.Forall₂ r) m m') : List.Forall₂ r m.flatten m'.flatten := by
  induction h with
  | nil => exact .nil
  | cons a _ ih => exact all2_append a ih

theorem all2_replicate {x : β} {y : γ} (hx : r x y) (n : Nat) : List.Forall₂ r (List.replicate n x) (List.replicate n y) := by
  induction n with
  | zero => exact .nil
  | succ n ih => exact .cons hx ih

theorem all2_get (h : List.Forall₂ r l l') (i : Nat) : (l[i]? = none ∧ l'[i]? = none) ∨ ∃ x y, l[i]? = some x ∧ l'[i]? = some y ∧ r x y := by
  induction h generalizing i with
  | nil => exact .inl ⟨rfl, rfl⟩
  | cons a h ih =>
    cases i with
    | zero => exact .inr ⟨_, _, rfl, rfl, a⟩
    | succ i => exact ih i
end

/-- one operation of vectors -/
theorem KnownBytes.of_step {sz : Nat} {K : KnownBytes} {S S' : Seqs} (h : K.Of S) (o : VOp) (hs : S.Step sz o S') : (K.step sz o).Of S' := by
  obtain ⟨hx, hseen⟩ := h
  cases o with
  | new => obtain rfl := hs; exact ⟨all2_snoc hx .nil, hseen⟩
  | newSize n =>
    obtain ⟨us, h1, h2, rfl⟩ := hs
    exact ⟨all2_snoc hx (agrees_nones h1 h2), hseen⟩
  | newFill n x =>
    obtain rfl := hs
    simp only [KnownBytes.step]
    split
    · exact ⟨all2_snoc hx (all2_replicate (agrees_known x) n), hseen⟩
    · exact ⟨hx, hseen⟩
  | newRange ys =>
    obtain rfl := hs
    simp only [KnownBytes.step]
    split
    · exact ⟨all2_snoc hx (agrees_knowns ys), hseen⟩
    · exact ⟨hx, hseen⟩
  | copy j =>
    rcases all2_get hx j with ⟨h1, h2⟩ | ⟨k, s, h1, h2, h3⟩ <;> simp only [Seqs.Step, h2] at hs <;> obtain rfl := hs <;> simp only [KnownBytes.step, h1]
    · exact ⟨hx, hseen⟩
    · exact ⟨all2_snoc hx h3, hseen⟩
  | move j =>
    rcases all2_get hx j with ⟨h1, h2⟩ | ⟨k, s, h1, h2, h3⟩ <;> simp only [Seqs.Step, h2] at hs <;> obtain rfl := hs <;> simp only [KnownBytes.step, h1]
    · exact ⟨hx, hseen⟩
    · exact ⟨all2_snoc (all2_set hx .nil j) h3, hseen⟩
  | copyAssign i j =>
    rcases all2_get hx i with ⟨h1, h2⟩ | ⟨k, s, h1, h2, h3⟩
    · simp only [Seqs.Step, h2] at hs; obtain rfl := hs; simp only [KnownBytes.step, h1]
      exact ⟨hx, hseen⟩
    · rcases all2_get hx j with ⟨k1, k2⟩ | ⟨k', s', k1, k2, k3⟩ <;> simp only [Seqs.Step, h2, k2] at hs <;> obtain rfl := hs <;> simp only [KnownBytes.step, h1, k1]
      · exact ⟨hx, hseen⟩
      · split
        · exact ⟨hx, hseen⟩
        · exact ⟨all2_set hx k3 i, hseen⟩
  | moveAssign i j =>
    rcases all2_get hx i with ⟨h1, h2⟩ | ⟨k, s, h1, h2, h3⟩
    · simp only [Seqs.Step, h2] at hs; obtain rfl := hs; simp only [KnownBytes.step, h1]
      exact ⟨hx, hseen⟩
    · rcases all2_get hx j with ⟨k1, k2⟩ | ⟨k', s', k1, k2, k3⟩ <;> simp only [Seqs.Step, h2, k2] at hs <;> obtain rfl := hs <;> simp only [KnownBytes.step, h1, k1]
      · exact ⟨hx, hseen⟩
      · exact ⟨all2_set (all2_set hx k3 i) .nil j, hseen⟩
  | destroy i => obtain rfl := hs; exact ⟨all2_eraseIdx hx i, hseen⟩
  | push i x =>
    rcases all2_get hx i with ⟨h1, h2⟩ | ⟨k, s, h1, h2, h3⟩ <;> simp only [Seqs.Step, h2] at hs <;> obtain rfl := hs <;> simp only [KnownBytes.step, h1]
    · exact ⟨hx, hseen⟩
    · split
      · exact ⟨all2_set hx (all2_snoc h3 (agrees_known x)) i, all2_snoc hseen (agrees_known x)⟩
      · exact ⟨hx, hseen⟩
  | pushRange i zs =>
    rcases all2_get hx i with ⟨h1, h2⟩ | ⟨k, s, h1, h2, h3⟩ <;> simp only [Seqs.Step, h2] at hs <;> obtain rfl := hs <;> simp only [KnownBytes.step, h1]
    · exact ⟨hx, hseen⟩
    · split
      · exact ⟨all2_set hx (all2_append h3 (agrees_knowns zs)) i, all2_snoc hseen (all2_flatten (agrees_knowns zs))⟩
      · exact ⟨hx, hseen⟩
  | pushFrom i j a n =>
    rcases all2_get hx i with ⟨h1, h2⟩ | ⟨k, s, h1, h2, h3⟩
    · simp only [Seqs.Step, h2] at hs; obtain rfl := hs; simp only [KnownBytes.step, h1]
      exact ⟨hx, hseen⟩
    · rcases all2_get hx j with ⟨k1, k2⟩ | ⟨k', s', k1, k2, k3⟩ <;> simp only [Seqs.Step, h2, k2] at hs <;> obtain rfl := hs <;> simp only [KnownBytes.step, h1, k1]
      · exact ⟨hx, hseen⟩
      · have hm := List.forall₂_take n (List.forall₂_drop a k3)
        rw [k3.length_eq]
        split
        · exact ⟨all2_set hx (all2_append h3 hm) i, all2_snoc hseen (all2_flatten hm)⟩
        · exact ⟨hx, hseen⟩
  | erase i k =>
    rcases all2_get hx i with ⟨h1, h2⟩ | ⟨u, s, h1, h2, h3⟩ <;> simp only [Seqs.Step, h2] at hs <;> obtain rfl := hs <;> simp only [KnownBytes.step, h1]
    · exact ⟨hx, hseen⟩
    · rw [h3.length_eq]
      split
      · exact ⟨all2_set hx (all2_eraseIdx h3 k) i, all2_snoc hseen (all2_flatten (List.forall₂_drop _ h3))⟩
      · exact ⟨hx, hseen⟩
  | eraseRange i a n =>
    rcases all2_get hx i with ⟨h1, h2⟩ | ⟨u, s, h1, h2, h3⟩ <;> simp only [Seqs.Step, h2] at hs <;> obtain rfl := hs <;> simp only [KnownBytes.step, h1]
    · exact ⟨hx, hseen⟩
    · rw [h3.length_eq]
      split
      · exact ⟨all2_set hx (all2_append (List.forall₂_take a h3) (List.forall₂_drop _ h3)) i, all2_snoc hseen (all2_flatten (List.forall₂_drop _ h3))⟩
      · exact ⟨hx, hseen⟩
  | resize i n =>
    rcases all2_get hx i with ⟨h1, h2⟩ | ⟨u, s, h1, h2, h3⟩ <;> simp only [Seqs.Step, h2] at hs
    · obtain rfl := hs; simp only [KnownBytes.step, h1]; exact ⟨hx, hseen⟩
    · obtain ⟨us, a1, a2, rfl⟩ := hs
      simp only [KnownBytes.step, h1]
      rw [h3.length_eq]
      exact ⟨all2_set hx (all2_append (List.forall₂_take n h3) (agrees_nones a1 a2)) i, hseen⟩
  | reserve i n => obtain rfl := hs; exact ⟨hx, hseen⟩
  | clear i => obtain rfl := hs; exact ⟨all2_set hx .nil i, hseen⟩
  | write i k x =>
    rcases all2_get hx i with ⟨h1, h2⟩ | ⟨u, s, h1, h2, h3⟩ <;> simp only [Seqs.Step, h2] at hs <;> obtain rfl := hs <;> simp only [KnownBytes.step, h1]
    · exact ⟨hx, hseen⟩
    · rw [h3.length_eq]
      split
      · exact ⟨all2_set hx (all2_set h3 (agrees_known x) k) i, hseen⟩
      · exact ⟨hx, hseen⟩
  | read i k =>
    rcases all2_get hx i with ⟨h1, h2⟩ | ⟨u, s, h1, h2, h3⟩
    · simp only [Seqs.Step, h2] at hs; obtain rfl := hs; simp only [KnownBytes.step, h1]
      exact ⟨hx, hseen⟩
    · rcases all2_get h3 k with ⟨k1, k2⟩ | ⟨u', s', k1, k2, k3⟩ <;> simp only [Seqs.Step, h2, k2] at hs <;> obtain rfl := hs <;> simp only [KnownBytes.step, h1, k1]
      · exact ⟨hx, hseen⟩
      · exact ⟨hx, all2_snoc hseen k3⟩

theorem KnownBytes.of_run {sz : Nat} {ops : List VOp} {K : KnownBytes} {S S' : Seqs} (h : K.Of S) (hs : Seqs.Run sz S ops S') : (ops.foldl (KnownBytes.step sz) K).Of S' := by
  induction hs generalizing K with
  | nil => exact h
  | cons h1 _ ih => exact ih (KnownBytes.of_step h _ h1)

theorem KnownBytes.of_astep {sz : Nat} {K : KnownBytes} {S S' : Seqs} (h : K.Of S) (o : ArrOp) (hs : S.AStep sz o S') : (K.astep sz o).Of S' := by
  cases o with
  | resize i n => exact KnownBytes.of_step h (.resize i n) hs
  | assign i zs =>
    obtain ⟨hx, hseen⟩ := h
    rcases all2_get hx i with ⟨h1, h2⟩ | ⟨u, s, h1, h2, h3⟩ <;> simp only [Seqs.AStep, h2] at hs <;> obtain rfl := hs <;> simp only [KnownBytes.astep, h1]
    · exact ⟨hx, hseen⟩
    · split
      · exact ⟨all2_set hx (agrees_knowns zs) i, hseen⟩
      · exact ⟨hx, hseen⟩
  | assignFrom i j a n =>
    obtain ⟨hx, hseen⟩ := h
    rcases all2_get hx i with ⟨h1, h2⟩ | ⟨k, s, h1, h2, h3⟩
    · simp only [Seqs.AStep, h2] at hs; obtain rfl := hs; simp only [KnownBytes.astep, h1]
      exact ⟨hx, hseen⟩
    · rcases all2_get hx j with ⟨k1, k2⟩ | ⟨k', s', k1, k2, k3⟩ <;> simp only [Seqs.AStep, h2, k2] at hs <;> obtain rfl := hs <;> simp only [KnownBytes.astep, h1, k1]
      · exact ⟨hx, hseen⟩
      · rw [k3.length_eq]
        split
        · exact ⟨all2_set hx (List.forall₂_take n (List.forall₂_drop a k3)) i, hseen⟩
        · exact ⟨hx, hseen⟩
  | _ => exact KnownBytes.of_step h _ hs

theorem KnownBytes.of_arun {sz : Nat} {ops : List ArrOp} {K : KnownBytes} {S S' : Seqs} (h : K.Of S) (hs : Seqs.ARun sz S ops S') : (ops.foldl (KnownBytes.astep sz) K).Of S' := by
  induction hs generalizing K with
  | nil => exact h
  | cons h1 _ ih => exact ih (KnownBytes.of_astep h _ h1)

theorem agrees_get {k : List (Option UInt8)} {x : List UInt8} (h : Agrees k x) {j : Nat} {y : UInt8} (hk : k[j]? = some (some y)) : x[j]? = some y := by
  rcases all2_get h j with ⟨h1, _⟩ | ⟨o, z, h1, h2, h3⟩
  · rw [h1] at hk; cases hk
  · rw [h1] at hk
    rw [h2, h3 y (Option.some.inj hk)]

theorem agrees_all {k : List (Option UInt8)} {x : List UInt8} (h : Agrees k x) : k.length = x.length ∧ ∀ (j : Nat) (y : UInt8), k[j]? = some (some y) → x[j]? = some y :=
  ⟨h.length_eq, fun _ _ hk => agrees_get h hk⟩

/-! ### Statements -/

/-- `seen` is what is known, filled in. -/
def SeenAs (K : List (List (Option UInt8))) (seen : List (List UInt8)) : Prop :=
  K.length = seen.length ∧ ∀ (i : Nat) (k : List (Option UInt8)) (x : List UInt8), K[i]? = some k → seen[i]? = some x →
    k.length = x.length ∧ ∀ (j : Nat) (y : UInt8), k[j]? = some (some y) → x[j]? = some y

theorem seenAs_of {K : List (List (Option UInt8))} {seen : List (List UInt8)} (h : List.Forall₂ Agrees K seen) : SeenAs K seen := by
  refine ⟨h.length_eq, fun i k x h1 h2 => ?_⟩
  rcases all2_get h i with ⟨a, _⟩ | ⟨k', x', a, b, hr⟩
  · rw [a] at h1; cases h1
  · rw [a] at h1; rw [b] at h2
    obtain rfl := Option.some.inj h1
    obtain rfl := Option.some.inj h2
    exact agrees_all hr

/-- `n` elements of `sz` bytes at address `p` are those known. -/
def HeldAs (w : World) (sz p n : Nat) (ks : List (List (Option UInt8))) : Prop :=
  n = ks.length ∧ ∀ (k : Nat) (x : List (Option UInt8)), ks[k]? = some x → x.length = sz ∧
    ∀ (j : Nat) (y : UInt8), x[j]? = some (some y) → w.heap.b (p + k * sz + j) = some y

theorem heldAs_of {w : World} {sz p n : Nat} {ks : List (List (Option UInt8))} {xs : List (List UInt8)} (h : List.Forall₂ Agrees ks xs) (hn : n = xs.length)
    (hm : ∀ (k : Nat) (e : List UInt8), xs[k]? = some e → e.length = sz ∧ ∀ j, j < sz → w.heap.b (p + k * sz + j) = e[j]?) : HeldAs w sz p n ks := by
  refine ⟨by rw [hn, h.length_eq], fun k x hk => ?_⟩
  rcases all2_get h k with ⟨a, _⟩ | ⟨x', e, a, b, hr⟩
  · rw [a] at hk; cases hk
  · rw [a] at hk
    obtain rfl := Option.some.inj hk
    obtain ⟨h1, h2⟩ := hm k e b
    have hl := hr.length_eq
    refine ⟨by rw [hl, h1], fun j y hj => ?_⟩
    have hjl := (List.getElem?_eq_some_iff.1 hj).1
    rw [h2 j (by omega), agrees_get hr hj]

/-- **C98, one run.** What a program with vectors sees, how many vectors there are, their sizes and all bytes that
the program has ever written to them are determined by the program alone, over any composition of allocators, any behaviour of
`malloc`, at any address and whatever was in memory. -/
theorem C98_vector_known (sys : Sys) (t : AllocTy) (hwf : t.WF) (b : Nat) (w : World) (hs : Storage w b t.size)
    (sz : Nat) (hz : 0 < sz) (ops : List VOp) (hops : VSane t sz ops) (c : Vecs (t.denote sys)) (w' : World)
    (hrun : vplay sz (t.denote sys) b ops w = .ok c w') :
    SeenAs (vknown sz ops).seen c.seen ∧ (vknown sz ops).xs.length = c.vs.length ∧
    ∀ (i : Nat) (v : Vec) (ks : List (List (Option UInt8))), c.vs[i]? = some v → (vknown sz ops).xs[i]? = some ks → HeldAs w' sz v.beg (v.size sz) ks := by
  have key := C42_vector_is_sequence sys t hwf b w hs sz hz ops hops
  rw [hrun] at key
  obtain ⟨S, h1, h2, h3, h4⟩ := key
  have hK : (vknown sz ops).Of S := KnownBytes.of_run (K := ⟨[], []⟩) ⟨.nil, .nil⟩ h1
  refine ⟨by rw [h2]; exact seenAs_of hK.2, by rw [h3]; exact hK.1.length_eq, fun i v ks hv hk => ?_⟩
  rcases all2_get hK.1 i with ⟨a, _⟩ | ⟨ks', xs, a, b, hr⟩
  · rw [a] at hk; cases hk
  · rw [a] at hk
    obtain rfl := Option.some.inj hk
    obtain ⟨k1, k2⟩ := h4 i v xs hv b
    exact heldAs_of hr k1 k2

/-- The same for arrays. -/
theorem C98_array_known (sys : Sys) (t : AllocTy) (hwf : t.WF) (b : Nat) (w : World) (hs : Storage w b t.size)
    (sz : Nat) (hz : 0 < sz) (ops : List ArrOp) (hops : ASane t sz ops) (c : Arrs (t.denote sys)) (w' : World)
    (hrun : aplay sz (t.denote sys) b ops w = .ok c w') :
    SeenAs (aknown sz ops).seen c.seen ∧ (aknown sz ops).xs.length = c.vs.length ∧
    ∀ (i : Nat) (v : Arr) (ks : List (List (Option UInt8))), c.vs[i]? = some v → (aknown sz ops).xs[i]? = some ks → HeldAs w' sz v.beg (v.size sz) ks := by
  have key := C49_array_is_sequence sys t hwf b w hs sz hz ops hops
  rw [hrun] at key
  obtain ⟨S, h1, h2, h3, h4⟩ := key
  have hK : (aknown sz ops).Of S := KnownBytes.of_arun (K := ⟨[], []⟩) ⟨.nil, .nil⟩ h1
  refine ⟨by rw [h2]; exact seenAs_of hK.2, by rw [h3]; exact hK.1.length_eq, fun i v ks hv hk => ?_⟩
  rcases all2_get hK.1 i with ⟨a, _⟩ | ⟨ks', xs, a, b, hr⟩
  · rw [a] at hk; cases hk
  · rw [a] at hk
    obtain rfl := Option.some.inj hk
    obtain ⟨k1, k2⟩ := h4 i v xs hv b
    exact heldAs_of hr k1 k2

/-- A program that makes no elements without giving them a value. -/
def VOp.valued : VOp → Bool
  | .newSize _ | .resize _ _ => false
  | _ => true

/-- The same for arrays. -/
def ArrOp.valued : ArrOp → Bool
  | .newSize _ | .resize _ _ => false
  | _ => true

theorem step_det {sz : Nat} {S a c : Seqs} {o : VOp} (ho : o.valued = true) (h1 : S.Step sz o a) (h2 : S.Step sz o c) : a = c := by
  cases o <;> first | cases ho | skip
  all_goals simp only [Seqs.Step] at h1 h2
  all_goals repeat' split at h1
  all_goals simp_all

theorem run_det {sz : Nat} {S a c : Seqs} {ops : List VOp} (ho : ∀ o ∈ ops, o.valued = true) (h1 : Seqs.Run sz S ops a) (h2 : Seqs.Run sz S ops c) : a = c := by
  induction h1 with
  | nil => cases h2; rfl
  | cons k _ ih =>
    cases h2 with
    | cons k' h2 =>
      obtain rfl := step_det (ho _ (by simp)) k k'
      exact ih (fun o h => ho o (by simp [h])) h2

theorem astep_det {sz : Nat} {S a c : Seqs} {o : ArrOp} (ho : o.valued = true) (h1 : S.AStep sz o a) (h2 : S.AStep sz o c) : a = c := by
  cases o with
  | newSize | resize => cases ho
  | assign i zs =>
    simp only [Seqs.AStep] at h1 h2
    split at h1 <;> simp_all
  | assignFrom i j k n =>
    simp only [Seqs.AStep] at h1 h2
    split at h1 <;> simp_all
  | new => exact step_det (sz := sz) (o := .new) rfl h1 h2
  | newFill n x => exact step_det (sz := sz) (o := .newFill n x) rfl h1 h2
  | newRange ys => exact step_det (sz := sz) (o := .newRange ys) rfl h1 h2
  | copy j => exact step_det (sz := sz) (o := .copy j) rfl h1 h2
  | move j => exact step_det (sz := sz) (o := .move j) rfl h1 h2
  | copyAssign i j => exact step_det (sz := sz) (o := .copyAssign i j) rfl h1 h2
  | moveAssign i j => exact step_det (sz := sz) (o := .moveAssign i j) rfl h1 h2
  | destroy i => exact step_det (sz := sz) (o := .destroy i) rfl h1 h2
  | write i k x => exact step_det (sz := sz) (o := .write i k x) rfl h1 h2
  | read i k => exact step_det (sz := sz) (o := .read i k) rfl h1 h2

theorem arun_det {sz : Nat} {S a c : Seqs} {ops : List ArrOp} (ho : ∀ o ∈ ops, o.valued = true) (h1 : Seqs.ARun sz S ops a) (h2 : Seqs.ARun sz S ops c) : a = c := by
  induction h1 with
  | nil => cases h2; rfl
  | cons k _ ih =>
    cases h2 with
    | cons k' h2 =>
      obtain rfl := astep_det (ho _ (by simp)) k k'
      exact ih (fun o h => ho o (by simp [h])) h2

theorem held_byte {w : World} {sz p : Nat} (hz : 0 < sz) {xs : List (List UInt8)}
    (hm : ∀ (k : Nat) (e : List UInt8), xs[k]? = some e → e.length = sz ∧ ∀ j, j < sz → w.heap.b (p + k * sz + j) = e[j]?) {x : Nat} (hx : x < xs.length * sz) :
    w.heap.b (p + x) = (xs[x / sz]?).bind (·[x % sz]?) := by
  have h1 : x / sz < xs.length := Nat.div_lt_of_lt_mul (by rw [Nat.mul_comm]; exact hx)
  have h2 := List.getElem?_eq_getElem h1
  rw [h2]
  have h3 := (hm _ _ h2).2 (x % sz) (Nat.mod_lt _ hz)
  have h4 := Nat.div_add_mod x sz
  rw [Nat.mul_comm] at h4
  rw [Nat.add_assoc, h4] at h3
  exact h3

/-- **C98, two runs.** A program that gives every element a value sees the same over any two compositions of allocators, two behaviours
of `malloc`, two addresses and two states of the memory — and leaves vectors of the same sizes with the same contents. -/
theorem C98_vectors_same (sys sys' : Sys) (t u : AllocTy) (hwf : t.WF) (hwf' : u.WF) (b b' : Nat) (w v : World) (hs : Storage w b t.size)
    (hs' : Storage v b' u.size) (sz : Nat) (hz : 0 < sz) (ops : List VOp) (hops : VSane t sz ops) (hops' : VSane u sz ops) (hval : ∀ o ∈ ops, o.valued = true)
    (c : Vecs (t.denote sys)) (w' : World) (hrun : vplay sz (t.denote sys) b ops w = .ok c w')
    (d : Vecs (u.denote sys')) (v' : World) (hrun' : vplay sz (u.denote sys') b' ops v = .ok d v') :
    c.seen = d.seen ∧ c.vs.length = d.vs.length ∧
    ∀ (i : Nat) (x y : Vec), c.vs[i]? = some x → d.vs[i]? = some y → x.size sz = y.size sz ∧
      ∀ k, k < x.size sz * sz → w'.heap.b (x.beg + k) = v'.heap.b (y.beg + k) := by
  have k1 := C42_vector_is_sequence sys t hwf b w hs sz hz ops hops
  have k2 := C42_vector_is_sequence sys' u hwf' b' v hs' sz hz ops hops'
  rw [hrun] at k1
  rw [hrun'] at k2
  obtain ⟨S, h1, h2, h3, h4⟩ := k1
  obtain ⟨S', g1, g2, g3, g4⟩ := k2
  obtain rfl := run_det hval h1 g1
  refine ⟨by rw [h2, g2], by rw [h3, g3], fun i x y hx hy => ?_⟩
  obtain ⟨xs, hi⟩ : ∃ xs, S.xs[i]? = some xs :=
    ⟨_, List.getElem?_eq_getElem (by rw [← h3]; exact (List.getElem?_eq_some_iff.1 hx).1)⟩
  obtain ⟨a1, a2⟩ := h4 i x _ hx hi
  obtain ⟨b1, b2⟩ := g4 i y _ hy hi
  refine ⟨by rw [a1, b1], fun k hk => ?_⟩
  rw [a1] at hk
  rw [held_byte hz a2 hk, held_byte hz b2 hk]

/-- The same for arrays. -/
theorem C98_arrays_same (sys sys' : Sys) (t u : AllocTy) (hwf : t.WF) (hwf' : u.WF) (b b' : Nat) (w v : World) (hs : Storage w b t.size)
    (hs' : Storage v b' u.size) (sz : Nat) (hz : 0 < sz) (ops : List ArrOp) (hops : ASane t sz ops) (hops' : ASane u sz ops) (hval : ∀ o ∈ ops, o.valued = true)
    (c : Arrs (t.denote sys)) (w' : World) (hrun : aplay sz (t.denote sys) b ops w = .ok c w')
    (d : Arrs (u.denote sys')) (v' : World) (hrun' : aplay sz (u.denote sys') b' ops v = .ok d v') :
    c.seen = d.seen ∧ c.vs.length = d.vs.length ∧
    ∀ (i : Nat) (x y : Arr), c.vs[i]? = some x → d.vs[i]? = some y → x.size sz = y.size sz ∧
      ∀ k, k < x.size sz * sz → w'.heap.b (x.beg + k) = v'.heap.b (y.beg + k) := by
  have k1 := C49_array_is_sequence sys t hwf b w hs sz hz ops hops
  have k2 := C49_array_is_sequence sys' u hwf' b' v hs' sz hz ops hops'
  rw [hrun] at k1
  rw [hrun'] at k2
  obtain ⟨S, h1, h2, h3, h4⟩ := k1
  obtain ⟨S', g1, g2, g3, g4⟩ := k2
  obtain rfl := arun_det hval h1 g1
  refine ⟨by rw [h2, g2], by rw [h3, g3], fun i x y hx hy => ?_⟩
  obtain ⟨xs, hi⟩ : ∃ xs, S.xs[i]? = some xs :=
    ⟨_, List.getElem?_eq_getElem (by rw [← h3]; exact (List.getElem?_eq_some_iff.1 hx).1)⟩
  obtain ⟨a1, a2⟩ := h4 i x _ hx hi
  obtain ⟨b1, b2⟩ := g4 i y _ hy hi
  refine ⟨by rw [a1, b1], fun k hk => ?_⟩
  rw [a1] at hk
  rw [held_byte hz a2 hk, held_byte hz b2 hk]

/-! ### Vectors over shared allocators -/

/-- A program that makes no elements without giving them a value. -/
def ShOp.valued : ShOp → Bool
  | .use _ o => o.valued
  | _ => true

theorem shstep_det {sz : Nat} {S a c : Seqs} {o : ShOp} (ho : o.valued = true) (h1 : S.ShStep sz o a) (h2 : S.ShStep sz o c) : a = c := by
  cases o with
  | fresh => exact step_det (sz := sz) (o := .new) rfl h1 h2
  | like j =>
    simp only [Seqs.ShStep] at h1 h2
    split at h1
    · rename_i h; rw [if_pos h] at h2; exact step_det (sz := sz) (o := .new) rfl h1 h2
    · rename_i h; rw [if_neg h] at h2; rw [h1, h2]
  | use i o =>
    simp only [Seqs.ShStep] at h1 h2
    cases hi : S.xs[i]? with
    | none => simp only [hi] at h1 h2; rw [h1, h2]
    | some ys =>
      simp only [hi] at h1 h2
      split at h1
      · rename_i hs
        rw [if_pos hs] at h2
        obtain ⟨y1, s1, k1, rfl⟩ := h1
        obtain ⟨y2, s2, k2, rfl⟩ := h2
        have := step_det ho k1 k2
        simp only [Seqs.mk.injEq, List.cons.injEq, and_true] at this
        rw [this.1, this.2]
      · rename_i hs
        rw [if_neg hs] at h2
        rw [h1, h2]
  | copy j => exact step_det (sz := sz) (o := .copy j) rfl h1 h2
  | copyWith j k =>
    simp only [Seqs.ShStep] at h1 h2
    split at h1
    · rename_i h; rw [if_pos h] at h2; exact step_det (sz := sz) (o := .copy j) rfl h1 h2
    · rename_i h; rw [if_neg h] at h2; rw [h1, h2]
  | move j => exact step_det (sz := sz) (o := .move j) rfl h1 h2
  | copyAssign i j => exact step_det (sz := sz) (o := .copyAssign i j) rfl h1 h2
  | moveAssign i j =>
    simp only [Seqs.ShStep] at h1 h2
    split at h1
    · rename_i h; rw [if_pos h] at h2; rw [h1, h2]
    · rename_i h; rw [if_neg h] at h2; exact step_det (sz := sz) (o := .moveAssign i j) rfl h1 h2
  | destroy i => exact step_det (sz := sz) (o := .destroy i) rfl h1 h2

theorem shrun_det {sz : Nat} {S a c : Seqs} {ops : List ShOp} (ho : ∀ o ∈ ops, o.valued = true) (h1 : Seqs.ShRun sz S ops a) (h2 : Seqs.ShRun sz S ops c) : a = c := by
  induction h1 with
  | nil => cases h2; rfl
  | cons k _ ih =>
    cases h2 with
    | cons k' h2 =>
      obtain rfl := shstep_det (ho _ (by simp)) k k'
      exact ih (fun o h => ho o (by simp [h])) h2

/-- The same for vectors that hold reference counted allocators. -/
theorem C98_shared_vectors_same (sys sys' : Sys) (t u : AllocTy) (hwf : t.WF) (hwf' : u.WF) (w v : World) (sz : Nat) (hz : 0 < sz) (ops : List ShOp)
    (hops : ShSane t sz ops) (hops' : ShSane u sz ops) (hval : ∀ o ∈ ops, o.valued = true)
    (c : ShVecs (t.denote sys)) (w' : World) (hrun : ShVecs.run sys sz (A := t.denote sys) ⟨[], [], []⟩ ops w = .ok c w')
    (d : ShVecs (u.denote sys')) (v' : World) (hrun' : ShVecs.run sys' sz (A := u.denote sys') ⟨[], [], []⟩ ops v = .ok d v') :
    c.seen = d.seen ∧ c.vs.length = d.vs.length ∧
    ∀ (i n m : Nat) (x y : Vec), c.vs[i]? = some (n, x) → d.vs[i]? = some (m, y) → x.size sz = y.size sz ∧
      ∀ k, k < x.size sz * sz → w'.heap.b (x.beg + k) = v'.heap.b (y.beg + k) := by
  have k1 := C71_vectors_over_shared sys t hwf w sz hz ops hops
  have k2 := C71_vectors_over_shared sys' u hwf' v sz hz ops hops'
  rw [hrun] at k1
  rw [hrun'] at k2
  obtain ⟨⟨S, h1, h2, h3, h4⟩, _⟩ := k1
  obtain ⟨⟨S', g1, g2, g3, g4⟩, _⟩ := k2
  obtain rfl := shrun_det hval h1 g1
  refine ⟨by rw [h2, g2], by rw [h3, g3], fun i n m x y hx hy => ?_⟩
  obtain ⟨xs, hi⟩ : ∃ xs, S.xs[i]? = some xs :=
    ⟨_, List.getElem?_eq_getElem (by rw [← h3]; exact (List.getElem?_eq_some_iff.1 hx).1)⟩
  obtain ⟨a1, a2⟩ := h4 i n x _ hx hi
  obtain ⟨b1, b2⟩ := g4 i m y _ hy hi
  refine ⟨by rw [a1, b1], fun k hk => ?_⟩
  rw [a1] at hk
  rw [held_byte hz a2 hk, held_byte hz b2 hk]

/-! ### Heaps -/

section
variable {α : Type}

/-- runs of the specification, with the order of the elements. Proof helper, not code. -/
inductive Bags.ERun (comp eq : α → α → Bool) : Bags α → List (BOp α) → Bags α → Prop
  | nil (c) : ERun comp eq c [] c
  | cons {c op c' ops c''} : c.Step comp eq op c' → c.Exact comp op c' → ERun comp eq c' ops c'' → ERun comp eq c (op :: ops) c''

theorem hrun_order {A : Allocator} {fA : Nat → Prop} (hA : Sound A fA) (b N : Nat) {E : Elt α} (hE : E.Ok) (comp eq : α → α → Bool)
    (hfit : ∀ n, 0 < n → n ≤ 2 * N → E.size * n < W64 ∧ fA (E.size * n)) (ops : List (BOp α)) (h0 : (∃ o ∈ ops, o.mayBeEmpty = true) → fA 0)
    (T : Nat) (ns : List Nat) (hpop : E.trivial = true ∨ popsLast ns ops = false) (c : BHeaps A α) (S : Bags α) (hN : T + hweights ops ≤ N) :
    Triple (HInv hA b E comp T ns c S) (c.run E comp eq ops) (fun c' x => ∃ S', Bags.ERun comp eq S ops S' ∧ ∃ ns', HInv hA b E comp N ns' c' S' x) := by
  induction ops generalizing T c S ns with
  | nil =>
    refine Triple.pure _ (fun x hp => ⟨S, .nil S, ns, ?_⟩)
    obtain ⟨Γ, h1, h2, h3, h4, h5, h6⟩ := hp
    exact HInv.keep h5 (by simp [hweights] at hN; omega) h1 h2 h3 h4 h6
  | cons o os ih =>
    simp only [hweights] at hN
    refine Triple.bind (hstep_exact hA b T N hE comp eq ns c S o hfit (fun h => h0 ⟨o, by simp, h⟩) (by omega) (hpop.imp id fun h => (popsLast_cons h).1)) (fun c' => ?_)
    refine Triple.exists fun S' => Triple.and fun hstep => ?_
    refine (ih (fun ⟨o', ho, h⟩ => h0 ⟨o', by simp [ho], h⟩) (T + o.weight) (o.sizes ns) (hpop.imp id fun h => (popsLast_cons h).2) c' S' (by omega)).post (fun c'' x hx => ?_)
    obtain ⟨S'', h1, h2⟩ := hx
    exact ⟨S'', .cons hstep.1 hstep.2 h1, h2⟩

theorem bag_det {comp eq : α → α → Bool} {S a c : Bags α} {o : BOp α} (h1 : S.Step comp eq o a) (e1 : S.Exact comp o a)
    (h2 : S.Step comp eq o c) (e2 : S.Exact comp o c) : a = c := by
  have same : a.seen = c.seen → a.xs = c.xs → a = c := by
    cases a; cases c; rintro rfl rfl; rfl
  cases o with
  | newList vs =>
    obtain ⟨_, _, rfl⟩ := h1
    obtain ⟨_, _, rfl⟩ := h2
    exact same rfl (e1.trans e2.symm)
  | insert i v =>
    simp only [Bags.Step] at h1 h2
    cases hi : S.xs[i]? with
    | none => simp only [hi] at h1 h2; rw [h1, h2]
    | some ys =>
      simp only [hi] at h1 h2
      have x1 := e1 ys hi
      have x2 := e2 ys hi
      obtain ⟨_, _, rfl⟩ := h1
      obtain ⟨_, _, rfl⟩ := h2
      exact same rfl (x1.trans x2.symm)
  | insertFrom i j k =>
    simp only [Bags.Step] at h1 h2
    cases hi : S.xs[i]? with
    | none => simp only [hi] at h1 h2; rw [h1, h2]
    | some ys =>
      cases hj : S.xs[j]? with
      | none => simp only [hi, hj] at h1 h2; rw [h1, h2]
      | some us =>
        cases hk : us[k]? with
        | none => simp only [hi, hj, hk] at h1 h2; rw [h1, h2]
        | some v =>
          simp only [hi, hj, hk] at h1 h2
          by_cases hij : i = j
          · rw [if_pos hij] at h1 h2; rw [h1, h2]
          · rw [if_neg hij] at h1 h2
            have x1 := e1 ys us v hi hj hk hij
            have x2 := e2 ys us v hi hj hk hij
            obtain ⟨_, _, rfl⟩ := h1
            obtain ⟨_, _, rfl⟩ := h2
            exact same rfl (x1.trans x2.symm)
  | pop i =>
    simp only [Bags.Step] at h1 h2
    cases hi : S.xs[i]? with
    | none => simp only [hi] at h1 h2; rw [h1, h2]
    | some l =>
      cases l with
      | nil => simp only [hi] at h1 h2; rw [h1, h2]
      | cons v ys =>
        simp only [hi] at h1 h2
        have x1 := e1 v ys hi
        have x2 := e2 v ys hi
        obtain ⟨_, _, _, rfl⟩ := h1
        obtain ⟨_, _, _, rfl⟩ := h2
        exact same rfl (x1.trans x2.symm)
  | _ =>
    clear e1 e2 same
    simp only [Bags.Step] at h1 h2
    repeat' split at h1
    all_goals simp_all

theorem erun_det {comp eq : α → α → Bool} {S a c : Bags α} {ops : List (BOp α)} (h1 : Bags.ERun comp eq S ops a) (h2 : Bags.ERun comp eq S ops c) : a = c := by
  induction h1 with
  | nil => cases h2; rfl
  | cons k e _ ih =>
    cases h2 with
    | cons k' e' h2 =>
      obtain rfl := bag_det k e k' e'
      exact ih h2

theorem hplay_order (sys : Sys) (t : AllocTy) (hwf : t.WF) (b : Nat) (w : World) (hs : Storage w b t.size) {E : Elt α} (hE : E.Ok) (comp eq : α → α → Bool)
    (ops : List (BOp α)) (hops : HSane t E ops) (c : BHeaps (t.denote sys) α) (w' : World) (hrun : hplay E comp eq (t.denote sys) b ops w = .ok c w') :
    ∃ S, Bags.ERun comp eq ⟨[], []⟩ ops S ∧ c.seen = S.seen ∧ c.hs.length = S.xs.length ∧
      ∀ (i : Nat) (h : BHeap) (xs : List α), c.hs[i]? = some h → S.xs[i]? = some xs → h.size = xs.length ∧ Holds E c.objs w' h.beg xs := by
  have hpop := hplay_exact sys t hwf (t.sound sys hwf) (t.objSize_eq sys) b w hs hE comp eq ops hops
  rw [hrun] at hpop
  obtain ⟨h0, hf, hd, he, hb, hfb, hft⟩ := storage_split hs
  have hfit := hops.fits hwf hE sys.plat
  have key : Triple (bytes b (t.denote sys).objSize) (hplay E comp eq (t.denote sys) b ops)
      (fun c x => ∃ S, Bags.ERun comp eq ⟨[], []⟩ ops S ∧ ∃ ns, HInv (t.sound sys hwf) b E comp (hweights ops) ns c S x) := by
    refine Triple.bind ((t.sound sys hwf).init_spec b hs.1 hs.2.1 (by rw [t.objSize_eq]; exact hs.2.2.1)) (fun s => ?_)
    refine (hrun_order (t.sound sys hwf) b _ hE comp eq hfit.1 ops hfit.2 0 [] hpop _ ⟨[], []⟩ (by omega)).pre (fun x hx => ?_)
    exact ⟨[], rfl, rfl, rfl, rfl, fun g hg => by simp at hg, tpool_start hx⟩
  have := key w h0 hf hd he (by rw [t.objSize_eq]; exact hb)
  rw [hrun] at this
  obtain ⟨⟨h', hd', he', S, h1, ns, hI⟩, hna⟩ := this
  obtain ⟨k1, k2, k3⟩ := hI.final hE he'
  exact ⟨S, h1, k1, k2, fun i h xs hi hx => ⟨(k3 i h xs hi hx).1, (k3 i h xs hi hx).2.2.1⟩⟩

/-- **C98, heaps.** With heaps, too, a program sees the same over any two compositions, whatever the comparison (a strict weak order
or not, with any number of equivalent elements), and leaves heaps of the same sizes with the same elements in the same order. -/
theorem C98_heaps_same (sys sys' : Sys) (t u : AllocTy) (hwf : t.WF) (hwf' : u.WF) (b b' : Nat) (w v : World) (hs : Storage w b t.size)
    (hs' : Storage v b' u.size) (E : Elt α) (hE : E.Ok) (comp eq : α → α → Bool) (ops : List (BOp α)) (hops : HSane t E ops) (hops' : HSane u E ops)
    (c : BHeaps (t.denote sys) α) (w' : World) (hrun : hplay E comp eq (t.denote sys) b ops w = .ok c w')
    (d : BHeaps (u.denote sys') α) (v' : World) (hrun' : hplay E comp eq (u.denote sys') b' ops v = .ok d v') :
    c.seen = d.seen ∧ c.hs.length = d.hs.length ∧
    ∀ (i : Nat) (x y : BHeap), c.hs[i]? = some x → d.hs[i]? = some y → x.size = y.size ∧
      ∃ xs : List α, xs.length = x.size ∧ Holds E c.objs w' x.beg xs ∧ Holds E d.objs v' y.beg xs := by
  obtain ⟨S, h1, h2, h3, h4⟩ := hplay_order sys t hwf b w hs hE comp eq ops hops c w' hrun
  obtain ⟨S', g1, g2, g3, g4⟩ := hplay_order sys' u hwf' b' v hs' hE comp eq ops hops' d v' hrun'
  obtain rfl := erun_det h1 g1
  refine ⟨by rw [h2, g2], by rw [h3, g3], fun i x y hx hy => ?_⟩
  obtain ⟨xs, hi⟩ : ∃ xs, S.xs[i]? = some xs :=
    ⟨_, List.getElem?_eq_getElem (by rw [← h3]; exact (List.getElem?_eq_some_iff.1 hx).1)⟩
  obtain ⟨a1, a2⟩ := h4 i x _ hx hi
  obtain ⟨b1, b2⟩ := g4 i y _ hy hi
  exact ⟨by rw [a1, b1], xs, a1.symm, a2, b2⟩
end

/-! ### Examples -/

/-- two elements nobody wrote, then written and new ones -/
def demoSameOps : List VOp := [.newSize 2, .write 0 1 [7, 8], .push 0 [1, 2], .read 0 0, .read 0 1, .resize 0 4, .erase 0 0, .copy 0]

/-- what is known of them -/
example : (vknown 2 demoSameOps).seen = [[some 1, some 2], [none, none], [some 7, some 8], [some 7, some 8, some 1, some 2, none, none]] := by decide
example : (vknown 2 demoSameOps).xs = [[[some 7, some 8], [some 1, some 2], [none, none]], [[some 7, some 8], [some 1, some 2], [none, none]]] := by decide
example : VSane (.threaded (.linear 64)) 2 demoSameOps := by
  refine ⟨by decide, ?_⟩
  rintro ⟨o, ho, h⟩
  decide
example : ((vplay 2 (mallocator (demoSys .direct)) 4096 demoSameOps (demoWorld 32)).test fun c _ => decide (c.seen.length = 4)) = true := by decide +kernel

/-- the same program with heaps over two allocators -/
example : ((hplay demoElt demoLess (fun a b => a == b) (mallocator (demoSys .direct)) 4096 demoHeapOps (demoWorld 32)).test
    fun c _ => decide (c.seen = [.elem 7, .elem 1, .elem 3, .found true, .elem 2, .elem 2, .elem 8])) = true ∧
    ((hplay demoElt demoLess (fun a b => a == b) (linear 512) 4096 demoHeapOps (demoWorld 1024)).test
    fun c _ => decide (c.seen = [.elem 7, .elem 1, .elem 3, .found true, .elem 2, .elem 2, .elem 8])) = true := by
  constructor <;> decide +kernel
example : ∀ o ∈ ([.newRange [[1], [2]], .push 0 [3], .read 0 1, .copy 0] : List VOp), o.valued = true := by decide

end KTL
