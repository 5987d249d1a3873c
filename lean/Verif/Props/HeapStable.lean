import Verif.Props.VectorStable
import Verif.Props.BinaryHeapCost

/- C101: while a `binary_heap` has room, its calls leave its block in place and move only the elements they have to; beyond that the
capacity grows exactly as written. Specification first, then the proof. -/
namespace KTL
variable {α : Type}

/-! ### Specification -/

/-- The heap an operation changes or looks at in place; `none` for operations that create, assign or destroy heaps. -/
def BOp.target : BOp α → Option Nat
  | .reserve i _ | .insert i _ | .insertFrom i _ _ | .pop i | .peek i | .find i _ | .clear i => some i
  | _ => none

/-- The capacity an operation needs on a heap of `n` elements. -/
def BOp.needs (n : Nat) : BOp α → Nat
  | .insert _ _ | .insertFrom _ _ _ => n + 1
  | .reserve _ m => m
  | _ => 0

/-- `Above n k`: position `k` is `n`, or its parent, or the parent of that, and so on. -/
inductive Above (n : Nat) : Nat → Prop
  | self : Above n n
  | parent {k : Nat} : Above n k → 0 < k → Above n ((k - 1) / 2)

/-- The positions whose elements an operation may write, move or destroy, on a heap of `n` elements: `insert` those from the new last one
up to the first, `pop` and `clear` all, the others none. -/
def BOp.touches (n : Nat) : BOp α → Nat → Prop
  | .insert _ _ | .insertFrom _ _ _ => Above n
  | .pop _ | .clear _ => fun k => k < n
  | _ => fun _ => False

/-- The addresses of the elements at the positions `P` of the block at `beg`. -/
def atPositions (beg sz : Nat) (P : Nat → Prop) (a : Nat) : Prop := ∃ k, P k ∧ beg + k * sz ≤ a ∧ a < beg + (k + 1) * sz

/-- The two worlds agree, but for the contents of the bytes at the addresses `P`: no storage has been obtained or given back,
nothing has been printed. -/
structure SameOutside (P : Nat → Prop) (w w' : World) : Prop where
  bytes : ∀ a, ¬ P a → w'.heap.b a = w.heap.b a
  blocks : w'.heap.t = w.heap.t
  requests : w'.tick = w.tick
  failed : w'.failed = w.failed
  printed : w'.out = w.out
  log : w'.log = w.log

/-- The capacity after an operation on a heap with `n` elements and capacity `cap`. -/
def BOp.capacityAfter (n cap : Nat) (o : BOp α) : Nat :=
  if o.needs n ≤ cap then cap else
    match o with
    | .insert _ _ | .insertFrom _ _ _ => cap + Max.max cap 1
    | .reserve _ m => m
    | _ => cap

/-- The call meets its precondition on the element given. -/
def BOp.Proper (hs : List BHeap) : BOp α → Prop
  | .insertFrom i j k => i ≠ j ∧ ∃ g, hs[j]? = some g ∧ k < g.size
  | _ => True

/-! ### Proof -/

theorem Above.le {n k : Nat} (h : Above n k) : k ≤ n := by
  induction h with
  | self => exact Nat.le_refl _
  | parent _ _ ih => omega

theorem SameOutside.refl (P : Nat → Prop) (w : World) : SameOutside P w w := ⟨fun _ _ => rfl, rfl, rfl, rfl, rfl, rfl⟩

theorem SameOutside.trans {P : Nat → Prop} {w1 w2 w3 : World} (h : SameOutside P w1 w2) (h' : SameOutside P w2 w3) : SameOutside P w1 w3 :=
  ⟨fun a ha => (h'.bytes a ha).trans (h.bytes a ha), h'.blocks.trans h.blocks, h'.requests.trans h.requests, h'.failed.trans h.failed,
    h'.printed.trans h.printed, h'.log.trans h.log⟩

/-- `c` only writes at the addresses `P`, does not give up, and returns something with `Q`. Proof helper, not code. -/
def Within {β} (P : Nat → Prop) (c : M β) (Q : β → Prop) : Prop := ∀ w,
  match c w with
  | .ok a w' => SameOutside P w w' ∧ Q a
  | .oom _ => False
  | .ub => True

/-- the record of objects is the same elsewhere. Proof helper, not code. -/
def Untouched (P : Nat → Prop) (o o' : Objs α) : Prop := ∀ p, ¬ P p → o' p = o p

theorem Untouched.refl (P : Nat → Prop) (o : Objs α) : Untouched P o o := fun _ _ => rfl

theorem Untouched.trans {P : Nat → Prop} {o1 o2 o3 : Objs α} (h : Untouched P o1 o2) (h' : Untouched P o2 o3) : Untouched P o1 o3 :=
  fun p hp => (h' p hp).trans (h p hp)

theorem Untouched.set {P : Nat → Prop} {o : Objs α} {p : Nat} {x : Obj α} (h : P p) : Untouched P o (o.set p x) := fun q hq =>
  if_neg (fun (e : q = p) => hq (e ▸ h))

namespace Within

theorem pure {β} {P : Nat → Prop} {a : β} {Q : β → Prop} (h : Q a) : Within P (Pure.pure a) Q := fun _ => ⟨.refl _ _, h⟩

theorem ub {β} {P : Nat → Prop} {Q : β → Prop} : Within P (M.ub : M β) Q := fun _ => trivial

theorem bind {β γ} {P : Nat → Prop} {c : M β} {f : β → M γ} {R : β → Prop} {Q : γ → Prop} (h : Within P c R)
    (hf : ∀ a, R a → Within P (f a) Q) : Within P (c >>= f) Q := fun w => by
  rw [M.bind_apply]
  have h1 := h w
  cases hc : c w with
  | ub => exact trivial
  | oom w1 => rw [hc] at h1; exact h1
  | ok a w1 =>
    rw [hc] at h1
    have h2 := hf a h1.2 w1
    show match f a w1 with
      | .ok a w' => SameOutside P w w' ∧ Q a
      | .oom _ => False
      | .ub => True
    cases hq : f a w1 with
    | ub => exact trivial
    | oom w2 => rw [hq] at h2; exact h2
    | ok b w2 => rw [hq] at h2; exact ⟨h1.1.trans h2.1, h2.2⟩

theorem of_confined {β} {P : Nat → Prop} {lo hi : Nat} {c : M β} {Q : β → Prop} (h : Confined lo hi c Q)
    (hP : ∀ a, lo ≤ a → a < hi → P a) : Within P c Q := fun w => by
  have h1 := h w
  cases hc : c w with
  | ub => exact trivial
  | oom w1 => rw [hc] at h1; exact h1
  | ok a w1 =>
    rw [hc] at h1
    obtain ⟨h2, h3⟩ := h1
    exact ⟨⟨fun a ha => h2.bytes a (by
      by_cases hl : a < lo
      · exact .inl hl
      · refine .inr (Nat.le_of_not_lt fun hh => ha (hP a (by omega) hh))), h2.blocks, h2.requests, h2.failed, h2.printed, h2.log⟩, h3⟩

theorem mono {β} {P : Nat → Prop} {c : M β} {Q R : β → Prop} (h : Within P c Q) (hq : ∀ a, Q a → R a) : Within P c R := fun w => by
  have h1 := h w
  cases hc : c w with
  | ub => exact trivial
  | oom w1 => rw [hc] at h1; exact h1
  | ok a w1 => rw [hc] at h1; exact ⟨h1.1, hq a h1.2⟩

section
variable {E : Elt α} (hE : E.Ok) {P : Nat → Prop} {beg : Nat} (o : Objs α)

/-- all bytes of the element at `p` may be written. Proof helper, not code. -/
def Covers (P : Nat → Prop) (E : Elt α) (p : Nat) : Prop := ∀ a, p ≤ a → a < p + E.size → P a

theorem at_ (p : Nat) : Within P (E.at o p) (fun _ => True) := by
  unfold Elt.at
  refine bind (of_confined (Confined.readBytes 0 0 _ _) (fun a _ h => absurd h (Nat.not_lt_zero _))) fun bs _ => ?_
  split
  · split
    · exact pure trivial
    · exact ub
  · exact ub

theorem read (p : Nat) : Within P (E.read o p) (fun _ => True) := bind (at_ o p) fun _ _ => pure trivial

include hE

theorem write {p : Nat} (v : α) (h : Covers P E p) : Within P (M.writeBytes p (E.enc v)) (fun _ => True) :=
  of_confined (Confined.writeBytes p (p + E.size) _ _ (.inr ⟨Nat.le_refl _, by rw [hE.len v]; exact Nat.le_refl _⟩)) h

theorem construct {p : Nat} (v : α) (h : Covers P E p) : Within P (E.construct o p v) (Untouched P o) := by
  unfold Elt.construct
  split
  · exact ub
  · exact bind (write hE v h) fun _ _ => pure (.set (h p (Nat.le_refl _) (by have := hE.pos; omega)))

theorem assign {p : Nat} (v : α) (h : Covers P E p) : Within P (E.assign o p v) (Untouched P o) := by
  unfold Elt.assign
  exact bind (at_ o p) fun _ _ => bind (write hE v h) fun _ _ => pure (.set (h p (Nat.le_refl _) (by have := hE.pos; omega)))

theorem moveOut {p : Nat} (h : Covers P E p) : Within P (E.moveOut o p) (fun r => Untouched P o r.2) := by
  unfold Elt.moveOut
  exact bind (read o p) fun _ _ => bind (assign hE o _ h) fun _ ho => pure ho

theorem destroy {p : Nat} (h : Covers P E p) : Within P (E.destroy o p) (Untouched P o) := by
  unfold Elt.destroy
  refine bind (at_ o p) fun x _ => ?_
  split
  · exact pure (.set (h p (Nat.le_refl _) (by have := hE.pos; omega)))
  · exact ub

theorem destroyAll (beg i n : Nat) (h : ∀ k, i ≤ k → k < i + n → Covers P E (beg + k * E.size)) :
    Within P (BHeap.destroyAll E beg i n o) (Untouched P o) := by
  induction n generalizing i o with
  | zero => exact pure (.refl _ _)
  | succ n ih =>
    refine bind (destroy hE o (h i (Nat.le_refl _) (by omega))) fun o' ho' => ?_
    exact (ih o' (i + 1) (fun k h1 h2 => h k (by omega) (by omega))).mono fun o'' h'' => ho'.trans h''

theorem upLoop (comp : α → α → Bool) (beg n : Nat) (value : α) (index : Nat) (hi : Above n index)
    (h : ∀ k, Above n k → Covers P E (beg + k * E.size)) :
    Within P (BHeap.upLoop E comp beg value index o) (fun r => Above n r.1 ∧ Untouched P o r.2) := by
  induction index using Nat.strongRecOn generalizing o with
  | _ index ih =>
    unfold BHeap.upLoop
    split
    · rename_i h0
      have hp : Above n ((index - 1) / 2) := .parent hi (Nat.pos_of_ne_zero h0)
      refine bind (read o _) fun pv _ => ?_
      split
      · refine bind (moveOut hE o (h _ hp)) fun r hr => bind (assign hE r.2 _ (h _ hi)) fun o' ho' => ?_
        exact (ih _ (by omega) o' hp).mono fun r' hr' => ⟨hr'.1, (hr.trans ho').trans hr'.2⟩
      · exact pure ⟨hi, .refl _ _⟩
    · exact pure ⟨hi, .refl _ _⟩

theorem percolateUp (comp : α → α → Bool) (beg n : Nat) (h : ∀ k, Above n k → Covers P E (beg + k * E.size)) :
    Within P (BHeap.percolateUp E comp beg n o) (fun r => Untouched P o r.2) := by
  unfold BHeap.percolateUp
  refine bind (read o _) fun value _ => bind (upLoop hE o comp beg n value n .self h) fun r hr => ?_
  exact bind (assign hE r.2 value (h _ hr.1)) fun o' ho' => pure (hr.2.trans ho')

omit hE in
theorem better (comp : α → α → Bool) (beg size c child : Nat) (n : Nat) (h : child < n) (hs : size ≤ n) :
    Within P (BHeap.better E comp beg size o c child) (fun k => k < n) := by
  unfold BHeap.better
  split
  · refine bind (read o _) fun x _ => bind (read o _) fun y _ => pure ?_
    split
    · omega
    · exact h
  · exact pure h

theorem downLoop (comp : α → α → Bool) (beg size n fuel parent : Nat) (hp : parent < n) (hs : size ≤ n)
    (h : ∀ k, k < n → Covers P E (beg + k * E.size)) :
    Within P (BHeap.downLoop E comp beg size fuel parent o) (fun r => r.1 < n ∧ Untouched P o r.2) := by
  induction fuel generalizing parent o with
  | zero => exact ub
  | succ fuel ih =>
    unfold BHeap.downLoop
    split
    · refine bind (better o comp beg size _ _ n hp hs) fun c hc => bind (better o comp beg size _ _ n hc hs) fun child hchild => ?_
      split
      · exact pure ⟨hp, .refl _ _⟩
      · refine bind (moveOut hE o (h _ hchild)) fun t ht => bind (moveOut hE t.2 (h _ hp)) fun p hpp => ?_
        refine bind (assign hE p.2 _ (h _ hchild)) fun o1 ho1 => bind (assign hE o1 _ (h _ hp)) fun o2 ho2 => ?_
        exact (ih o2 child hchild).mono fun r hr => ⟨hr.1, (((ht.trans hpp).trans ho1).trans ho2).trans hr.2⟩
    · exact pure ⟨hp, .refl _ _⟩

theorem percolateDown (comp : α → α → Bool) (beg size index n : Nat) (hp : index < n) (hs : size ≤ n)
    (h : ∀ k, k < n → Covers P E (beg + k * E.size)) : Within P (BHeap.percolateDown E comp beg size index o) (Untouched P o) := by
  unfold BHeap.percolateDown
  refine bind (read o _) fun value _ => bind (downLoop hE o comp beg size n _ _ hp hs h) fun r hr => ?_
  exact (assign hE r.2 value (h _ hr.1)).mono fun o' ho' => hr.2.trans ho'

theorem moveElem (dst src : Nat) (h1 : Covers P E dst) (h2 : Covers P E src) : Within P (BHeap.moveElem E o dst src) (Untouched P o) := by
  unfold BHeap.moveElem
  split
  · exact bind (read o _) fun v _ => assign hE o _ h1
  · exact bind (moveOut hE o h2) fun r hr => (assign hE r.2 _ h1).mono fun o' ho' => hr.trans ho'

theorem pop (comp : α → α → Bool) (hp : BHeap) (h0 : 0 < hp.size) (h : ∀ k, k < hp.size → Covers P E (hp.beg + k * E.size)) :
    Within P (BHeap.pop E comp o hp) (fun r => Untouched P o r.2.1 ∧ r.2.2 = { hp with size := hp.size - 1 }) := by
  unfold BHeap.pop
  have hb : Covers P E hp.beg := by simpa using h 0 h0
  refine bind (read o _) fun root _ => bind (moveElem hE o _ _ hb (h _ (by omega))) fun o1 ho1 => ?_
  refine bind (destroy hE o1 (h _ (by omega))) fun o2 ho2 => ?_
  refine bind (percolateDown hE o2 comp hp.beg (hp.size - 1) 0 hp.size h0 (by omega) h) fun o3 ho3 => ?_
  exact pure ⟨(ho1.trans ho2).trans ho3, rfl⟩

theorem insert {A : Allocator} (s : A.St) (comp : α → α → Bool) (hp : BHeap) (x : HArg α) (hn : hp.size ≠ hp.cap)
    (h : ∀ k, Above hp.size k → Covers P E (hp.beg + k * E.size)) :
    Within P (hp.insert E comp A s o x) (fun r => r.2.1 = s ∧ Untouched P o r.2.2.1 ∧ r.2.2.2 = { hp with size := hp.size + 1 }) := by
  rw [BHeap.insert_room E comp A s o hp x hn]
  refine bind (R := fun _ => True) ?_ fun v _ => bind (construct hE o v (h _ .self)) fun o1 ho1 => ?_
  · cases x with
    | val v => exact pure trivial
    | ref p => exact read o p
  · exact bind (percolateUp hE o1 comp hp.beg hp.size h) fun u hu => pure ⟨rfl, ho1.trans hu, rfl⟩

omit hE in
theorem find (eq : α → Bool) (beg i n : Nat) : Within P (BHeap.find E eq o beg i n) (fun _ => True) := by
  induction n generalizing i with
  | zero => exact pure trivial
  | succ n ih =>
    refine bind (read o _) fun x _ => ?_
    split
    · exact pure trivial
    · exact ih _
end
end Within

/-- a step that stays in place. Proof helper, not code. -/
def HStaysPut {A : Allocator} (P : Nat → Prop) (c : BHeaps A α) (i : Nat) (h : BHeap) (c' : BHeaps A α) : Prop :=
  c'.st = c.st ∧ Untouched P c.objs c'.objs ∧ ∃ h', c'.hs = c.hs.set i h' ∧ h'.beg = h.beg ∧ h'.cap = h.cap

theorem hstep_in_place {A : Allocator} {E : Elt α} (hE : E.Ok) (comp eq : α → α → Bool) (c : BHeaps A α) (o : BOp α) (i : Nat) (h : BHeap)
    (ho : o.target = some i) (hi : c.hs[i]? = some h) (hroom : o.needs h.size ≤ h.cap) :
    Within (atPositions h.beg E.size (o.touches h.size)) (c.step E comp eq o) (HStaysPut (atPositions h.beg E.size (o.touches h.size)) c i h) := by
  have hcov : ∀ k, o.touches h.size k → Within.Covers (atPositions h.beg E.size (o.touches h.size)) E (h.beg + k * E.size) :=
    fun k hk a h1 h2 => ⟨k, hk, h1, by rw [Nat.succ_mul]; omega⟩
  have hsame : HStaysPut (atPositions h.beg E.size (o.touches h.size)) c i h c := ⟨rfl, .refl _ _, h, set_get hi, rfl, rfl⟩
  cases o with
  | reserve i' m =>
    obtain rfl := Option.some.inj ho
    simp only [BOp.needs] at hroom
    simp only [BHeaps.step, hi]
    unfold BHeap.reserve
    rw [if_neg (by omega)]
    exact Within.bind (R := fun r => r = (c.st, c.objs, h)) (.pure rfl) fun r hr => by subst hr; exact .pure ⟨rfl, .refl _ _, h, rfl, rfl, rfl⟩
  | insert i' v =>
    obtain rfl := Option.some.inj ho
    simp only [BOp.needs] at hroom
    simp only [BHeaps.step, hi]
    refine Within.bind (Within.insert hE c.objs c.st comp h _ (by omega) hcov) fun r hr => ?_
    exact Within.bind (Within.read _ _) fun x _ => .pure ⟨hr.1, hr.2.1, _, rfl, by rw [hr.2.2], by rw [hr.2.2]⟩
  | insertFrom i' j k =>
    obtain rfl := Option.some.inj ho
    simp only [BOp.needs] at hroom
    simp only [BHeaps.step, hi]
    cases hj : c.hs[j]? with
    | none => exact .pure hsame
    | some g =>
      dsimp only
      split
      · refine Within.bind (Within.insert hE c.objs c.st comp h _ (by omega) hcov) fun r hr => ?_
        exact .pure ⟨hr.1, hr.2.1, _, rfl, by rw [hr.2.2], by rw [hr.2.2]⟩
      · exact .pure hsame
  | pop i' =>
    obtain rfl := Option.some.inj ho
    simp only [BHeaps.step, hi]
    split
    · rename_i h0
      refine Within.bind (Within.pop hE c.objs comp h h0 hcov) fun r hr => ?_
      exact .pure ⟨rfl, hr.1, _, rfl, by rw [hr.2], by rw [hr.2]⟩
    · exact .pure hsame
  | peek i' =>
    obtain rfl := Option.some.inj ho
    simp only [BHeaps.step, hi]
    split
    · unfold BHeap.peek
      exact Within.bind (Within.read _ _) fun x _ => .pure hsame
    · exact .pure hsame
  | find i' v =>
    obtain rfl := Option.some.inj ho
    simp only [BHeaps.step, hi]
    exact Within.bind (Within.find _ _ _ _ _) fun x _ => .pure hsame
  | clear i' =>
    obtain rfl := Option.some.inj ho
    simp only [BHeaps.step, hi]
    unfold BHeap.clear
    refine Within.bind (R := fun r => Untouched (atPositions h.beg E.size (BOp.touches h.size (.clear i' : BOp α))) c.objs r.1 ∧ r.2 = { h with size := 0 })
      (Within.bind (Within.destroyAll hE c.objs h.beg 0 h.size (fun k _ hk => hcov k (show k < h.size by omega))) fun o' ho' => .pure ⟨ho', rfl⟩) fun r hr => ?_
    exact .pure ⟨rfl, hr.1, _, rfl, by rw [hr.2], by rw [hr.2]⟩
  | new => cases ho
  | newCap => cases ho
  | newList => cases ho
  | copy => cases ho
  | move => cases ho
  | copyAssign => cases ho
  | moveAssign => cases ho
  | destroy => cases ho

theorem hrun_snoc {A : Allocator} (E : Elt α) (comp eq : α → α → Bool) (c : BHeaps A α) (ops : List (BOp α)) (o : BOp α) :
    c.run E comp eq (ops ++ [o]) = (c.run E comp eq ops >>= fun c' => c'.step E comp eq o) := by
  induction ops generalizing c with
  | nil =>
    show (c.step E comp eq o >>= fun c' => pure c') = (pure c >>= fun c' => c'.step E comp eq o)
    rw [bind_pure, pure_bind]
  | cons p ops ih =>
    show (c.step E comp eq p >>= fun c' => c'.run E comp eq (ops ++ [o])) =
      ((c.step E comp eq p >>= fun c' => c'.run E comp eq ops) >>= fun c' => c'.step E comp eq o)
    rw [bind_assoc]
    congr 1
    funext c'
    exact ih c'

theorem hplay_snoc (E : Elt α) (comp eq : α → α → Bool) (A : Allocator) (b : Nat) (ops : List (BOp α)) (o : BOp α) :
    hplay E comp eq A b (ops ++ [o]) = (hplay E comp eq A b ops >>= fun c => c.step E comp eq o) := by
  unfold hplay
  rw [bind_assoc]
  congr 1
  funext s
  exact hrun_snoc E comp eq _ ops o

/-- **C101**, room. After any history, a call on heap `i` that needs no more than its `capacity()` — `insert`, `pop`, `peek`, `find`,
`reserve`, `clear` — ends normally, does not use the allocator, leaves the block and the capacity of every heap and all the other heaps as they
are, and writes, moves or destroys no element but those it has to: `insert` only elements on the way from the new last place up
to the first. (Popping the last element of a heap of a non-trivial type is undefined: C56.) -/
theorem C101_heap_stable_within_capacity (sys : Sys) (t : AllocTy) (hwf : t.WF) (b : Nat) (w : World) (hs : Storage w b t.size)
    (E : Elt α) (hE : E.Ok) (comp eq : α → α → Bool) (ops : List (BOp α)) (o : BOp α) (hops : HSane t E (ops ++ [o]))
    (hpop : E.trivial = true ∨ popsLast [] (ops ++ [o]) = false) (c : BHeaps (t.denote sys) α) (w1 : World)
    (hrun : hplay E comp eq (t.denote sys) b ops w = .ok c w1) (i : Nat) (h : BHeap) (ho : o.target = some i) (hi : c.hs[i]? = some h)
    (hroom : o.needs h.size ≤ h.cap) :
    ∃ c' w2, c.step E comp eq o w1 = .ok c' w2 ∧ c'.st = c.st ∧
      (∀ j : Nat, (c'.hs[j]?).map BHeap.beg = (c.hs[j]?).map BHeap.beg ∧ (c'.hs[j]?).map BHeap.cap = (c.hs[j]?).map BHeap.cap) ∧
      (∀ j : Nat, j ≠ i → c'.hs[j]? = c.hs[j]?) ∧
      (∀ p, ¬ atPositions h.beg E.size (o.touches h.size) p → c'.objs p = c.objs p) ∧
      SameOutside (atPositions h.beg E.size (o.touches h.size)) w1 w2 := by
  have key := hstep_in_place hE comp eq c o i h ho hi hroom w1
  have hub := C52_heap_is_bag sys t hwf b w hs E hE comp eq (ops ++ [o]) hops
  rw [hplay_snoc, bind_of_ok hrun] at hub
  cases hst : c.step E comp eq o w1 with
  | ub =>
    rw [hst] at hub
    rcases hpop with h | h
    · rw [h] at hub; cases hub.1
    · rw [h] at hub; cases hub.2
  | oom w2 => rw [hst] at key; exact key.elim
  | ok c' w2 =>
    rw [hst] at key
    obtain ⟨k1, k2, k6, v', k3, k4, k5⟩ := key
    refine ⟨c', w2, rfl, k2, fun j => ?_, fun j hj => ?_, k6, k1⟩
    · rw [k3]
      by_cases hj : i = j
      · subst hj
        obtain ⟨hlt, -⟩ := List.getElem?_eq_some_iff.1 hi
        rw [List.getElem?_set_self hlt, hi]
        simp [k4, k5]
      · rw [List.getElem?_set_ne hj]; exact ⟨rfl, rfl⟩
    · rw [k3, List.getElem?_set_ne (Ne.symm hj)]

/-- **C101**, growth. After any history, a call leaves exactly the capacity the growth rule says — the same if it is enough; twice as
much (at least one) if `insert` finds the heap full; what is asked for by `reserve` — and the heaps it is not called on as they were. -/
theorem C101_heap_growth_exact (sys : Sys) (t : AllocTy) (hwf : t.WF) (b : Nat) (w : World) (hs : Storage w b t.size)
    (E : Elt α) (hE : E.Ok) (comp eq : α → α → Bool) (ops : List (BOp α)) (o : BOp α) (hops : HSane t E ops)
    (c : BHeaps (t.denote sys) α) (w1 : World)
    (hrun : hplay E comp eq (t.denote sys) b ops w = .ok c w1) (i : Nat) (h : BHeap) (ho : o.target = some i) (hi : c.hs[i]? = some h)
    (hpr : o.Proper c.hs) (c' : BHeaps (t.denote sys) α) (w2 : World) (hstep : c.step E comp eq o w1 = .ok c' w2) :
    ∃ h', c'.hs = c.hs.set i h' ∧ h'.cap = o.capacityAfter h.size h.cap := by
  have hle : h.size ≤ h.cap := by
    obtain ⟨S, ns, g, hf, _, hd, he, hI, _⟩ := hplay_ok hwf (t.sound sys hwf) (t.objSize_eq sys) hs hE hops hrun
    obtain ⟨h1, h2, h3⟩ := hI.final hE he
    have hlt : i < S.xs.length := h2 ▸ (List.getElem?_eq_some_iff.1 hi).1
    exact (h3 i h _ hi (List.getElem?_eq_getElem hlt)).2.1
  unfold BOp.capacityAfter
  by_cases hroom : o.needs h.size ≤ h.cap
  · have key := hstep_in_place hE comp eq c o i h ho hi hroom w1
    rw [hstep] at key
    obtain ⟨_, -, -, v', k3, k4, k5⟩ := key
    exact ⟨v', k3, by rw [if_pos hroom, k5]⟩
  · rw [if_neg hroom]
    have hins : ∀ {x : HArg α} {w3 : World} {r : Nat × (t.denote sys).St × Objs α × BHeap}, h.size = h.cap →
        h.insert E comp (t.denote sys) c.st c.objs x w1 = .ok r w3 → r.2.2.2.cap = h.cap + Max.max h.cap 1 := fun {x w3 r} he hr => by
      unfold BHeap.insert at hr
      rw [if_pos he] at hr
      obtain ⟨q, w4, h1, hr⟩ := bind_ok hr
      obtain ⟨v, w5, _, hr⟩ := bind_ok hr
      obtain ⟨o1, w6, _, hr⟩ := bind_ok hr
      obtain ⟨u, w7, _, hr⟩ := bind_ok hr
      obtain ⟨rfl, rfl⟩ := pure_ok hr
      exact (BHeap.setSize_shape h1).2
    cases o with
    | reserve i' m =>
      obtain rfl := Option.some.inj ho
      simp only [BOp.needs] at hroom
      simp only [BHeaps.step, hi] at hstep
      obtain ⟨r, w3, h1, h2⟩ := bind_ok hstep
      obtain ⟨rfl, rfl⟩ := pure_ok h2
      unfold BHeap.reserve at h1
      rw [if_pos (by omega)] at h1
      exact ⟨_, rfl, (BHeap.setSize_shape h1).2⟩
    | insert i' v =>
      obtain rfl := Option.some.inj ho
      simp only [BOp.needs] at hroom
      simp only [BHeaps.step, hi] at hstep
      obtain ⟨r, w3, h1, h2⟩ := bind_ok hstep
      obtain ⟨x, w4, _, h2⟩ := bind_ok h2
      obtain ⟨rfl, rfl⟩ := pure_ok h2
      exact ⟨_, rfl, hins (by omega) h1⟩
    | insertFrom i' j k =>
      obtain rfl := Option.some.inj ho
      simp only [BOp.needs] at hroom
      obtain ⟨hij, g, hj, hk⟩ := hpr
      simp only [BHeaps.step, hi, hj] at hstep
      rw [if_pos ⟨hij, hk⟩] at hstep
      obtain ⟨r, w3, h1, h2⟩ := bind_ok hstep
      obtain ⟨rfl, rfl⟩ := pure_ok h2
      exact ⟨_, rfl, hins (by omega) h1⟩
    | pop => exact absurd (Nat.zero_le _) hroom
    | peek => exact absurd (Nat.zero_le _) hroom
    | find => exact absurd (Nat.zero_le _) hroom
    | clear => exact absurd (Nat.zero_le _) hroom
    | new => cases ho
    | newCap => cases ho
    | newList => cases ho
    | copy => cases ho
    | move => cases ho
    | copyAssign => cases ho
    | moveAssign => cases ho
    | destroy => cases ho

/-- a heap with three elements and room for four: inserting goes up from place 3 over 1 to 0 and leaves place 2 alone; then it is full -/
example : Above 3 1 ∧ Above 3 0 ∧ ¬ Above 3 2 := by
  refine ⟨.parent .self (by decide), .parent (.parent .self (by decide)) (by decide), fun h => ?_⟩
  have : ∀ k, Above 3 k → k = 3 ∨ k = 1 ∨ k = 0 := fun k hk => by
    induction hk with
    | self => exact .inl rfl
    | parent _ h0 ih => rcases ih with rfl | rfl | rfl <;> simp at h0 ⊢
  have := this 2 h
  omega

def demoRoomOps : List (BOp UInt8) := [.new, .reserve 0 4, .insert 0 5, .insert 0 7, .insert 0 6]

example : ((hplay demoElt demoLess (fun a b => a == b) (mallocator (demoSys .direct)) 4096 demoRoomOps (demoWorld 0)).test fun c w =>
    match c.hs[0]? with
    | some h => decide (h.size = 3 ∧ h.cap = 4 ∧ (BOp.insert 0 (1 : UInt8)).needs 3 ≤ 4) &&
        (c.step demoElt demoLess (fun a b => a == b) (.insert 0 1) w).test fun c' w' =>
          decide (c'.hs[0]? = some { h with size := 4 } ∧ w'.heap.b (h.beg + 2 * demoElt.size) = w.heap.b (h.beg + 2 * demoElt.size)) &&
          (c'.step demoElt demoLess (fun a b => a == b) (.insert 0 2) w').test fun c'' _ =>
            decide (c''.hs[0]?.map BHeap.cap = some 8 ∧ c''.hs[0]?.map BHeap.beg ≠ some h.beg)
    | none => false) = true := by decide +kernel

example : HSane .mallocator demoElt (demoRoomOps ++ [.insert 0 1]) ∧ popsLast [] (demoRoomOps ++ [.insert 0 1]) = false ∧ demoElt.Ok :=
  ⟨⟨by decide, fun _ => rfl⟩, by decide, ⟨by decide, fun _ => rfl⟩⟩

end KTL
