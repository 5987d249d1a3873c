import Verif.Containers.Pool

/- Objects of an arbitrary element type in the memory of the machine: construction, copying, moving, assignment
and destruction with their lifetime rules, and the rules for reasoning about them (proof machinery: `TPool`).

An object of type `T` is, on the abstract side, a value of a type `α`; in memory it is `sizeof(T)` bytes, its
representation. Which addresses hold objects is recorded beside the memory (`Objs`); the record has no
counterpart at run time, it is what the C++ lifetime rules speak about. Every access also goes to the bytes: it is
undefined if they are not allocated or if anything else has overwritten them. -/
namespace KTL

/-- What the model needs to know about an element type `T`. Simplifications: copying an object gives an equal value and
does not throw or allocate; the representation is a function of the value. C++ machine, not library code. -/
structure Elt (α : Type) where
  /-- `sizeof(T)` -/
  size : Nat
  /-- object representation -/
  enc : α → List UInt8
  /-- the value left in an object that has been moved from (any; the same for trivial types) -/
  moved : α → α
  /-- the value of an object after `x = std::move(x)` (any) -/
  selfMoved : α → α
  /-- trivially copyable and destructible: destroying an object leaves it as it was -/
  trivial : Bool

/-- `sizeof(T)` is positive and every representation has that length. C++ machine, not library code. -/
structure Elt.Ok {α : Type} (E : Elt α) : Prop where
  pos : 0 < E.size
  len : ∀ a, (E.enc a).length = E.size

/-- An object, or what is left of it after its destruction. C++ machine, not library code. -/
structure Obj (α : Type) where
  val : α
  alive : Bool
  deriving DecidableEq, Repr

/-- The objects by address. C++ machine, not library code. -/
abbrev Objs (α : Type) := Nat → Option (Obj α)

/-- C++ machine, not library code. -/
def Objs.set {α : Type} (o : Objs α) (p : Nat) (x : Obj α) : Objs α := fun q => if q = p then some x else o q

/-- the storage `[p, p + n)` is given back: nothing there any more. C++ machine, not library code. -/
def Objs.forget {α : Type} (o : Objs α) (p n : Nat) : Objs α := fun q => if p ≤ q ∧ q < p + n then none else o q

variable {α : Type}

/-- The object at `p`, if it may be used: within its lifetime, or of a trivial type. C++ machine, not library code. -/
def Elt.at (E : Elt α) (o : Objs α) (p : Nat) : M (Obj α) := do
  let bs ← M.readBytes p E.size
  match o p with
  | some x => if (x.alive || E.trivial) = true ∧ bs = E.enc x.val then pure x else M.ub
  | none => M.ub

/-- use of an object as a value (copying it, comparing it). C++ machine, not library code. -/
def Elt.read (E : Elt α) (o : Objs α) (p : Nat) : M α := do
  let x ← E.at o p
  pure x.val

/-- construct an object with value `v` at `p`; undefined (a leak) over an object that still needs destruction.
C++ machine, not library code. -/
def Elt.construct (E : Elt α) (o : Objs α) (p : Nat) (v : α) : M (Objs α) :=
  if ((o p).any Obj.alive && !E.trivial) = true then M.ub else do
    M.writeBytes p (E.enc v)
    pure (o.set p ⟨v, true⟩)

/-- assignment of a value to an object. C++ machine, not library code. -/
def Elt.assign (E : Elt α) (o : Objs α) (p : Nat) (v : α) : M (Objs α) := do
  let x ← E.at o p
  M.writeBytes p (E.enc v)
  pure (o.set p { x with val := v })

/-- the value of an object that is being moved from, which it loses. C++ machine, not library code. -/
def Elt.moveOut (E : Elt α) (o : Objs α) (p : Nat) : M (α × Objs α) := do
  let x ← E.read o p
  let o' ← E.assign o p (E.moved x)
  pure (x, o')

/-- call the destructor; undefined twice. C++ machine, not library code. -/
def Elt.destroy (E : Elt α) (o : Objs α) (p : Nat) : M (Objs α) := do
  let x ← E.at o p
  if x.alive then pure (o.set p { x with alive := false }) else M.ub

/-- `Traits::deallocate(m_Alloc, p, n)`; undefined (a leak) if objects are left there that need destruction.
C++ machine, not library code. -/
def Elt.dealloc (E : Elt α) (A : Allocator) (s : A.St) (o : Objs α) (p n : Nat) : M (A.St × Objs α) :=
  if E.trivial = false ∧ ∃ k, k < n ∧ (o (p + k * E.size)).any Obj.alive = true then M.ub else do
    let s' ← typedDealloc E.size A s p n
    pure (s', o.forget p (n * E.size))

/-! ### Reasoning -/

/-- the contents of the places of a block: nothing, or an object (alive or not). Proof helper, not code. -/
abbrev Slots (α : Type) := List (Option (Obj α))

/-- the bytes `bs` hold the objects. Proof helper, not code. -/
structure Elt.Bytes (E : Elt α) (sl : Slots α) (bs : List UInt8) : Prop where
  len : bs.length = sl.length * E.size
  data : ∀ (k : Nat) (x : Obj α), sl[k]? = some (some x) → (bs.drop (k * E.size)).take E.size = E.enc x.val

/-- Proof helper, not code. -/
inductive Elt.Match (E : Elt α) : List (Nat × Slots α) → List (Nat × List UInt8) → Prop
  | nil : E.Match [] []
  | cons {p sl bs Γ R} : E.Bytes sl bs → E.Match Γ R → E.Match ((p, sl) :: Γ) ((p, bs) :: R)

theorem Elt.Match.perm {E : Elt α} {Γ Γ' : List (Nat × Slots α)} {R : List (Nat × List UInt8)} (h : Γ.Perm Γ') (hm : E.Match Γ R) :
    ∃ R', R.Perm R' ∧ E.Match Γ' R' := by
  induction h generalizing R with
  | nil => exact ⟨R, .refl _, hm⟩
  | cons x _ ih =>
    cases hm with
    | cons h1 h2 =>
      obtain ⟨R', h3, h4⟩ := ih h2
      exact ⟨_, h3.cons _, .cons h1 h4⟩
  | swap x y l =>
    cases hm with
    | cons h1 h2 =>
      cases h2 with
      | cons h3 h4 => exact ⟨_, .swap _ _ _, .cons h3 (.cons h1 h4)⟩
  | trans _ _ ih1 ih2 =>
    obtain ⟨R', h3, h4⟩ := ih1 hm
    obtain ⟨R'', h5, h6⟩ := ih2 h4
    exact ⟨R'', h3.trans h5, h6⟩

theorem Elt.Match.mem {E : Elt α} {Γ : List (Nat × Slots α)} {R : List (Nat × List UInt8)} (hm : E.Match Γ R) {q : Nat} {sl : Slots α}
    (h : (q, sl) ∈ Γ) : ∃ bs, (q, bs) ∈ R ∧ E.Bytes sl bs := by
  induction hm with
  | nil => simp at h
  | cons h1 h2 ih =>
    rcases List.mem_cons.1 h with h | h
    · cases h
      exact ⟨_, by simp, h1⟩
    · obtain ⟨bs, h3, h4⟩ := ih h
      exact ⟨bs, by simp [h3], h4⟩

/-- the record of objects is that of the blocks. Proof helper, not code. -/
def Elt.Knows (E : Elt α) (o : Objs α) (Γ : List (Nat × Slots α)) : Prop :=
  ∀ (p : Nat) (x : Obj α), o p = some x ↔ ∃ (q : Nat) (sl : Slots α) (k : Nat), (q, sl) ∈ Γ ∧ sl[k]? = some (some x) ∧ p = q + k * E.size

/-- blocks do not overlap. Proof helper, not code. -/
def Apart (E : Elt α) (Γ : List (Nat × Slots α)) : Prop :=
  Γ.Pairwise fun u v => u.1 + u.2.length * E.size ≤ v.1 ∨ v.1 + v.2.length * E.size ≤ u.1 ∨ u.2.length = 0 ∨ v.2.length = 0

/-- Memory that holds blocks: what the rules for objects need to know about it. -/
class Store (P : List (Nat × List UInt8) → HProp) : Prop where
  perm : ∀ {R R'}, R.Perm R' → P R = P R'
  read : ∀ {p off n bs R'}, off + n ≤ bs.length →
    Triple (P ((p, bs) :: R')) (M.readBytes (p + off) n) (fun r x => r = (bs.drop off).take n ∧ P ((p, bs) :: R') x)
  write : ∀ {p off bs ds R'}, off + ds.length ≤ bs.length →
    Triple (P ((p, bs) :: R')) (M.writeBytes (p + off) ds) (fun _ => P ((p, splice bs off ds) :: R'))

instance {A : Allocator} {fA : Nat → Prop} (hA : Sound A fA) (b : Nat) (s : A.St) : Store (Pool hA b s) where
  perm h := Pool.perm h
  read hn := triple_poolRead _ _ _ _ _ _ (.refl _) hn
  write hn := triple_poolWrite _ _ _ _ _ _ (.refl _) hn

/-- The memory `P` with typed blocks. Proof helper, not code. -/
def TStore (P : List (Nat × List UInt8) → HProp) (E : Elt α) (o : Objs α) (Γ : List (Nat × Slots α)) : HProp :=
  fun x => ∃ R, E.Match Γ R ∧ Apart E Γ ∧ E.Knows o Γ ∧ P R x

/-- The memory of an allocator object at `b` and the typed blocks its clients hold. Proof helper, not code. -/
abbrev TPool {A : Allocator} {fA : Nat → Prop} (hA : Sound A fA) (b : Nat) (E : Elt α) (s : A.St) (o : Objs α) (Γ : List (Nat × Slots α)) : HProp :=
  TStore (Pool hA b s) E o Γ

section
variable {P : List (Nat × List UInt8) → HProp} {E : Elt α} {o : Objs α} {Γ Γ' : List (Nat × Slots α)}

theorem Elt.Knows.perm (h : Γ.Perm Γ') (hk : E.Knows o Γ) : E.Knows o Γ' := fun p x => by
  rw [hk p x]
  constructor
  · rintro ⟨q, sl, k, h1, h2⟩; exact ⟨q, sl, k, h.mem_iff.1 h1, h2⟩
  · rintro ⟨q, sl, k, h1, h2⟩; exact ⟨q, sl, k, h.mem_iff.2 h1, h2⟩

theorem Apart.perm (h : Γ.Perm Γ') (ha : Apart E Γ) : Apart E Γ' :=
  List.Pairwise.perm ha h (fun {x y} hxy => by omega)

theorem TStore.mono [Store P] (h : Γ.Perm Γ') (x : Heap) (hx : TStore P E o Γ x) : TStore P E o Γ' x := by
  obtain ⟨R, h1, h2, h3, h4⟩ := hx
  obtain ⟨R', h5, h6⟩ := h1.perm h
  exact ⟨R', h6, h2.perm h, h3.perm h, by rw [← Store.perm (P := P) h5]; exact h4⟩

theorem TStore.perm [Store P] (h : Γ.Perm Γ') : TStore P E o Γ = TStore P E o Γ' :=
  funext fun x => propext ⟨TStore.mono h x, TStore.mono h.symm x⟩

/-- where an address of a block lies -/
theorem Apart.unique (hE : E.Ok) {q : Nat} {sl : Slots α} (ha : Apart E ((q, sl) :: Γ)) {k : Nat} (hk : k < sl.length)
    {q' : Nat} {sl' : Slots α} (h' : (q', sl') ∈ Γ) {k' : Nat} (hk' : k' < sl'.length) : q + k * E.size ≠ q' + k' * E.size := by
  have := (List.pairwise_cons.1 ha).1 _ h'
  replace this : q + sl.length * E.size ≤ q' ∨ q' + sl'.length * E.size ≤ q ∨ sl.length = 0 ∨ sl'.length = 0 := this
  have h1 : (k + 1) * E.size ≤ sl.length * E.size := Nat.mul_le_mul_right _ hk
  have h2 : (k' + 1) * E.size ≤ sl'.length * E.size := Nat.mul_le_mul_right _ hk'
  rw [Nat.succ_mul] at h1 h2
  have := hE.pos
  omega

theorem Elt.index_inj (hE : E.Ok) {q k k' : Nat} (h : q + k * E.size = q + k' * E.size) : k = k' :=
  Nat.eq_of_mul_eq_mul_right hE.pos (by omega)

theorem Elt.Knows.head (hE : E.Ok) {q : Nat} {sl : Slots α} (hk : E.Knows o ((q, sl) :: Γ)) (ha : Apart E ((q, sl) :: Γ)) {k : Nat} {y : Option (Obj α)}
    (h : sl[k]? = some y) : o (q + k * E.size) = y := by
  have hlt := (List.getElem?_eq_some_iff.1 h).1
  cases y with
  | some x => exact (hk _ x).2 ⟨q, sl, k, by simp, h, rfl⟩
  | none =>
    cases ho : o (q + k * E.size) with
    | none => rfl
    | some x =>
      obtain ⟨q', sl', k', h1, h2, h3⟩ := (hk _ x).1 ho
      rcases List.mem_cons.1 h1 with h1 | h1
      · cases h1
        rw [Elt.index_inj hE h3] at h
        rw [h] at h2; cases h2
      · exact absurd h3 (ha.unique hE hlt h1 (List.getElem?_eq_some_iff.1 h2).1)

theorem Elt.Knows.set (hE : E.Ok) {q : Nat} {sl : Slots α} (hk : E.Knows o ((q, sl) :: Γ)) (ha : Apart E ((q, sl) :: Γ)) {k : Nat} (hlt : k < sl.length) (y : Obj α) :
    E.Knows (o.set (q + k * E.size) y) ((q, sl.set k (some y)) :: Γ) := by
  intro p x
  unfold Objs.set
  by_cases hp : p = q + k * E.size
  · rw [if_pos hp]
    constructor
    · intro h
      obtain rfl := Option.some.inj h
      exact ⟨q, sl.set k (some y), k, by simp, by rw [List.getElem?_set_self hlt], hp⟩
    · rintro ⟨q', sl', k', h1, h2, h3⟩
      rcases List.mem_cons.1 h1 with h1 | h1
      · cases h1
        rw [hp] at h3
        rw [← Elt.index_inj hE h3, List.getElem?_set_self hlt] at h2
        exact Option.some.inj h2
      · rw [hp] at h3
        exact absurd h3 (ha.unique hE hlt h1 (List.getElem?_eq_some_iff.1 h2).1)
  · rw [if_neg hp, hk p x]
    constructor
    · rintro ⟨q', sl', k', h1, h2, h3⟩
      rcases List.mem_cons.1 h1 with h1 | h1
      · cases h1
        refine ⟨q, sl.set k (some y), k', by simp, ?_, h3⟩
        rw [List.getElem?_set_ne (by rintro rfl; exact hp h3)]; exact h2
      · exact ⟨q', sl', k', by simp [h1], h2, h3⟩
    · rintro ⟨q', sl', k', h1, h2, h3⟩
      rcases List.mem_cons.1 h1 with h1 | h1
      · cases h1
        refine ⟨q, sl, k', by simp, ?_, h3⟩
        rw [List.getElem?_set_ne (by rintro rfl; exact hp h3)] at h2; exact h2
      · exact ⟨q', sl', k', by simp [h1], h2, h3⟩

theorem Apart.set {q : Nat} {sl sl' : Slots α} (ha : Apart E ((q, sl) :: Γ)) (h : sl'.length = sl.length) : Apart E ((q, sl') :: Γ) := by
  obtain ⟨h1, h2⟩ := List.pairwise_cons.1 ha
  exact List.pairwise_cons.2 ⟨fun v hv => by have := h1 v hv; simp only [h]; exact this, h2⟩

theorem splice_slice {bs ds : List UInt8} {i j n : Nat} (hd : ds.length = n) (hi : i * n + n ≤ bs.length) :
    ((splice bs (i * n) ds).drop (j * n)).take n = if j = i then ds else (bs.drop (j * n)).take n := by
  unfold splice
  have hl : (bs.take (i * n)).length = i * n := by rw [List.length_take]; omega
  split
  · rename_i h; subst h
    rw [List.drop_append_of_le_length (by omega), List.drop_eq_nil_of_le (by omega), List.nil_append, ← hd, List.take_left' rfl]
  · rename_i h
    rcases Nat.lt_or_gt_of_ne h with h | h
    · have h1 : (j + 1) * n ≤ i * n := Nat.mul_le_mul_right _ h
      rw [Nat.succ_mul] at h1
      rw [List.drop_append_of_le_length (by omega), List.take_append_of_le_length (by rw [List.length_drop]; omega), List.drop_take, List.take_take]
      congr 1; omega
    · have h1 : (i + 1) * n ≤ j * n := Nat.mul_le_mul_right _ h
      rw [Nat.succ_mul] at h1
      rw [show j * n = (bs.take (i * n)).length + (ds.length + (j * n - (i * n + n))) by omega, List.drop_append, List.drop_eq_nil_of_le (by omega), List.nil_append]
      rw [show (bs.take (i * n)).length + (ds.length + (j * n - (i * n + n))) - (bs.take (i * n)).length = ds.length + (j * n - (i * n + n)) by omega]
      rw [List.drop_append, List.drop_eq_nil_of_le (by omega), List.nil_append, List.drop_drop]
      congr 2; omega

theorem Elt.Bytes.set (hE : E.Ok) {sl : Slots α} {bs : List UInt8} (h : E.Bytes sl bs) {k : Nat} (hlt : k < sl.length) (y : Obj α) :
    E.Bytes (sl.set k (some y)) (splice bs (k * E.size) (E.enc y.val)) := by
  have h1 : (k + 1) * E.size ≤ sl.length * E.size := Nat.mul_le_mul_right _ hlt
  rw [Nat.succ_mul] at h1
  have h2 := h.len
  refine ⟨?_, fun j x hx => ?_⟩
  · rw [splice_length (by rw [hE.len]; omega), List.length_set, h.len]
  · rw [splice_slice (hE.len _) (by omega)]
    by_cases hj : j = k
    · subst hj
      rw [List.getElem?_set_self hlt] at hx
      obtain rfl := Option.some.inj (Option.some.inj hx)
      rw [if_pos rfl]
    · rw [if_neg hj]
      rw [List.getElem?_set_ne (Ne.symm hj)] at hx
      exact h.data _ _ hx

/-- the object in place `k` of a block -/
theorem triple_at [Store P] (hE : E.Ok) {q : Nat} {sl : Slots α} {k : Nat} {x : Obj α} (hk : sl[k]? = some (some x)) (hx : (x.alive || E.trivial) = true) :
    Triple (TStore P E o ((q, sl) :: Γ)) (E.at o (q + k * E.size)) (fun r h => r = x ∧ TStore P E o ((q, sl) :: Γ) h) := by
  refine Triple.exists fun R => Triple.and fun hm => Triple.and fun ha => Triple.and fun hkn => ?_
  cases hm with
  | @cons _ _ bs _ R' h1 h2 =>
    have hlt := (List.getElem?_eq_some_iff.1 hk).1
    have hle : (k + 1) * E.size ≤ sl.length * E.size := Nat.mul_le_mul_right _ hlt
    rw [Nat.succ_mul] at hle
    unfold Elt.at
    refine Triple.bind (Store.read (P := P) (R' := R') (p := q) (bs := bs) (by rw [h1.len]; exact hle)) (fun r => ?_)
    refine Triple.and fun hr => ?_
    rw [h1.data k x hk] at hr
    rw [hkn.head hE ha hk]
    dsimp only
    rw [if_pos ⟨hx, hr⟩]
    exact Triple.pure _ (fun h hh => ⟨rfl, _, .cons h1 h2, ha, hkn, hh⟩)

theorem triple_read [Store P] (hE : E.Ok) {q : Nat} {sl : Slots α} {k : Nat} {x : Obj α} (hk : sl[k]? = some (some x)) (hx : (x.alive || E.trivial) = true) :
    Triple (TStore P E o ((q, sl) :: Γ)) (E.read o (q + k * E.size)) (fun r h => r = x.val ∧ TStore P E o ((q, sl) :: Γ) h) := by
  refine Triple.bind (triple_at hE hk hx) (fun r => Triple.and fun hr => ?_)
  subst hr
  exact Triple.pure _ (fun h hh => ⟨rfl, hh⟩)

theorem triple_put [Store P] (hE : E.Ok) {q : Nat} {sl : Slots α} {k : Nat} (hlt : k < sl.length) (y : Obj α) :
    Triple (TStore P E o ((q, sl) :: Γ)) (M.writeBytes (q + k * E.size) (E.enc y.val))
      (fun _ => TStore P E (o.set (q + k * E.size) y) ((q, sl.set k (some y)) :: Γ)) := by
  refine Triple.exists fun R => Triple.and fun hm => Triple.and fun ha => Triple.and fun hkn => ?_
  cases hm with
  | @cons _ _ bs _ R' h1 h2 =>
    have hle : (k + 1) * E.size ≤ sl.length * E.size := Nat.mul_le_mul_right _ hlt
    rw [Nat.succ_mul] at hle
    refine (Store.write (P := P) (R' := R') (p := q) (bs := bs) (by rw [h1.len, hE.len]; exact hle)).post (fun _ h hh => ?_)
    exact ⟨_, .cons (h1.set hE hlt y) h2, ha.set (List.length_set ..), hkn.set hE ha hlt y, hh⟩

theorem triple_construct [Store P] (hE : E.Ok) {q : Nat} {sl : Slots α} {k : Nat} {y : Option (Obj α)} (hk : sl[k]? = some y)
    (hy : (y.any Obj.alive && !E.trivial) = false) (v : α) :
    Triple (TStore P E o ((q, sl) :: Γ)) (E.construct o (q + k * E.size) v)
      (fun o' => TStore P E o' ((q, sl.set k (some ⟨v, true⟩)) :: Γ)) := by
  have hlt := (List.getElem?_eq_some_iff.1 hk).1
  refine Triple.have (p := o (q + k * E.size) = y) (fun h hh => ?_) (fun ho => ?_)
  · obtain ⟨R, _, ha, hkn, _⟩ := hh
    exact hkn.head hE ha hk
  · unfold Elt.construct
    rw [ho, if_neg (by rw [hy]; decide)]
    refine Triple.bind (triple_put hE hlt ⟨v, true⟩) (fun _ => Triple.pure _ (fun h hh => hh))

theorem triple_assign [Store P] (hE : E.Ok) {q : Nat} {sl : Slots α} {k : Nat} {x : Obj α} (hk : sl[k]? = some (some x)) (hx : (x.alive || E.trivial) = true) (v : α) :
    Triple (TStore P E o ((q, sl) :: Γ)) (E.assign o (q + k * E.size) v)
      (fun o' => TStore P E o' ((q, sl.set k (some { x with val := v })) :: Γ)) := by
  have hlt := (List.getElem?_eq_some_iff.1 hk).1
  refine Triple.bind (triple_at hE hk hx) (fun r => Triple.and fun hr => ?_)
  subst hr
  refine Triple.bind (triple_put hE hlt { r with val := v }) (fun _ => Triple.pure _ (fun h hh => hh))

theorem triple_moveOut [Store P] (hE : E.Ok) {q : Nat} {sl : Slots α} {k : Nat} {x : Obj α} (hk : sl[k]? = some (some x)) (hx : (x.alive || E.trivial) = true) :
    Triple (TStore P E o ((q, sl) :: Γ)) (E.moveOut o (q + k * E.size))
      (fun r h => r.1 = x.val ∧ TStore P E r.2 ((q, sl.set k (some { x with val := E.moved x.val })) :: Γ) h) := by
  refine Triple.bind (triple_read hE hk hx) (fun r => Triple.and fun hr => ?_)
  subst hr
  refine Triple.bind (triple_assign hE hk hx _) (fun r => Triple.pure _ (fun h hh => ⟨rfl, hh⟩))

theorem triple_destroy [Store P] (hE : E.Ok) {q : Nat} {sl : Slots α} {k : Nat} {x : Obj α} (hk : sl[k]? = some (some x)) (hx : x.alive = true) :
    Triple (TStore P E o ((q, sl) :: Γ)) (E.destroy o (q + k * E.size))
      (fun o' => TStore P E o' ((q, sl.set k (some { x with alive := false })) :: Γ)) := by
  have hlt := (List.getElem?_eq_some_iff.1 hk).1
  refine Triple.bind (triple_at hE hk (by rw [hx]; rfl)) (fun r => Triple.and fun hr => ?_)
  subst hr
  rw [if_pos hx]
  refine Triple.pure _ (fun h hh => ?_)
  obtain ⟨R, hm, ha, hkn, hp⟩ := hh
  cases hm with
  | @cons _ _ bs _ R' h1 h2 =>
    refine ⟨_, .cons ⟨by rw [List.length_set]; exact h1.len, fun j y hy => ?_⟩ h2, ha.set (List.length_set ..), hkn.set hE ha hlt _, hp⟩
    by_cases hj : j = k
    · subst hj
      rw [List.getElem?_set_self hlt] at hy
      obtain rfl := Option.some.inj (Option.some.inj hy)
      exact h1.data _ r hk
    · rw [List.getElem?_set_ne (Ne.symm hj)] at hy
      exact h1.data _ _ hy

variable {A : Allocator} {fA : Nat → Prop} {hA : Sound A fA} {b : Nat} {s : A.St}

theorem Elt.Match.apart {R : List (Nat × List UInt8)} {q : Nat} {bs : List UInt8} (hE : E.Ok) (hm : E.Match Γ R) {x : Heap}
    (hp : Pool hA b s ((q, bs) :: R) x) {n : Nat} (hl : bs.length = n * E.size) :
    ∀ v ∈ Γ, q + n * E.size ≤ v.1 ∨ v.1 + v.2.length * E.size ≤ q ∨ n = 0 ∨ v.2.length = 0 := by
  rintro ⟨q', sl'⟩ hv
  obtain ⟨bs', h1, h2⟩ := hm.mem hv
  obtain ⟨i, hi⟩ := List.getElem?_of_mem h1
  have := Pool.disjoint ((perm_eraseIdx hi).cons (q, bs)) hp
  rw [hl, h2.len] at this
  rcases this with h | h | h | h
  · exact .inl h
  · exact .inr (.inl h)
  · exact .inr (.inr (.inl ((Nat.mul_eq_zero.1 h).resolve_right (by have := hE.pos; omega))))
  · exact .inr (.inr (.inr ((Nat.mul_eq_zero.1 h).resolve_right (by have := hE.pos; omega))))

/-- a new block: no objects in it -/
theorem triple_tgrab (hE : E.Ok) (n : Nat) (hf : fA (E.size * n)) (hn : E.size * n < W64) :
    Triple (TPool hA b E s o Γ) (grab E.size A s n) (fun r x =>
      (r.1 = 0 ∧ n = 0 ∧ TPool hA b E r.2 o Γ x) ∨ (r.1 ≠ 0 ∧ TPool hA b E r.2 o ((r.1, List.replicate n none) :: Γ) x)) := by
  refine Triple.exists fun R => Triple.and fun hm => Triple.and fun ha => Triple.and fun hkn => ?_
  refine (triple_grab E.size n R hf hn).post (fun r x hx => ?_)
  rcases hx with ⟨h1, h2, h3⟩ | ⟨h1, bs, h2, h3⟩
  · exact .inl ⟨h1, h2, R, hm, ha, hkn, h3⟩
  · refine .inr ⟨h1.1, (r.1, bs) :: R, .cons ⟨?_, fun k x hx => ?_⟩ hm, List.pairwise_cons.2 ⟨?_, ha⟩, fun p y => ?_, h3⟩
    · rw [h2, List.length_replicate, Nat.mul_comm]
    · rw [List.getElem?_replicate] at hx
      split at hx <;> cases hx
    · intro v hv
      show r.1 + (List.replicate n none).length * E.size ≤ v.1 ∨ v.1 + v.2.length * E.size ≤ r.1 ∨ (List.replicate n none).length = 0 ∨ v.2.length = 0
      rw [List.length_replicate]
      exact hm.apart hE h3 (by rw [h2, Nat.mul_comm]) v hv
    · rw [hkn p y]
      constructor
      · rintro ⟨q, sl, k, k1, k2⟩; exact ⟨q, sl, k, by simp [k1], k2⟩
      · rintro ⟨q, sl, k, k1, k2, k3⟩
        rcases List.mem_cons.1 k1 with k1 | k1
        · cases k1
          rw [List.getElem?_replicate] at k2
          split at k2 <;> cases k2
        · exact ⟨q, sl, k, k1, k2, k3⟩

/-- a block is given back -/
theorem triple_tdealloc (hE : E.Ok) {q : Nat} {sl : Slots α} (hsl : E.trivial = true ∨ ∀ y ∈ sl, y.any Obj.alive = false) (hn : E.size * sl.length < W64) :
    Triple (TPool hA b E s o ((q, sl) :: Γ)) (E.dealloc A s o q sl.length) (fun r => TPool hA b E r.1 r.2 Γ) := by
  refine Triple.exists fun R => Triple.and fun hm => Triple.and fun ha => Triple.and fun hkn => ?_
  cases hm with
  | @cons _ _ bs _ R' h1 h2 =>
    unfold Elt.dealloc
    rw [if_neg]
    · refine Triple.bind (triple_ungrab E.size sl.length q bs _ R' (.refl _) (by rw [h1.len, Nat.mul_comm]) hn) (fun s' => ?_)
      refine Triple.pure _ (fun x hx => ⟨R', h2, (List.pairwise_cons.1 ha).2, fun p y => ?_, hx⟩)
      show Objs.forget o q (sl.length * E.size) p = some y ↔ _
      unfold Objs.forget
      split
      · rename_i hp
        constructor
        · intro h; cases h
        · rintro ⟨q', sl', k', k1, k2, k3⟩
          have := (List.pairwise_cons.1 ha).1 _ k1
          replace this : q + sl.length * E.size ≤ q' ∨ q' + sl'.length * E.size ≤ q ∨ sl.length = 0 ∨ sl'.length = 0 := this
          have hk' := (List.getElem?_eq_some_iff.1 k2).1
          have h2 : (k' + 1) * E.size ≤ sl'.length * E.size := Nat.mul_le_mul_right _ hk'
          rw [Nat.succ_mul] at h2
          have := hE.pos
          have h0 : sl.length ≠ 0 := fun h0 => by rw [h0] at hp; omega
          omega
      · rename_i hp
        rw [hkn p y]
        constructor
        · rintro ⟨q', sl', k', k1, k2, k3⟩
          rcases List.mem_cons.1 k1 with k1 | k1
          · cases k1
            have hk' := (List.getElem?_eq_some_iff.1 k2).1
            have h2 : (k' + 1) * E.size ≤ sl.length * E.size := Nat.mul_le_mul_right _ hk'
            rw [Nat.succ_mul] at h2
            have := hE.pos
            omega
          · exact ⟨q', sl', k', k1, k2, k3⟩
        · rintro ⟨q', sl', k', k1, k2, k3⟩; exact ⟨q', sl', k', by simp [k1], k2, k3⟩
    · rintro ⟨ht, k, hk, hal⟩
      rcases hsl with h | h
      · rw [h] at ht; cases ht
      · have hk' : sl[k]? = some sl[k] := List.getElem?_eq_getElem hk
        rw [hkn.head hE ha hk', h _ (List.getElem_mem hk)] at hal
        cases hal

end
end KTL
