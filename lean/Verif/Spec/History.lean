import Verif.Alloc.Ty

/- Client programs: what a contract-abiding user of an allocator can do. This file is specification
(it models the client, not the library). -/
namespace KTL

/-- One step of a client. Indices refer to the client's list of live blocks (most recent first);
steps with an invalid index do nothing. -/
inductive Op where
  /-- call `allocate(n)`; if it succeeds, look at the bytes of the block -/
  | allocate (n : Nat)
  /-- call `deallocate(p, n)` for the `i`-th live block with its original size -/
  | deallocate (i : Nat)
  /-- store a byte in the `i`-th live block -/
  | write (i off : Nat) (v : UInt8)
  /-- call `construct` / `destroy` (if the allocator has them) for a location in the `i`-th block -/
  | construct (i off : Nat)
  | destroy (i off : Nat)
  /-- somebody else obtains a block from `malloc` -/
  | foreign (n : Nat)
  deriving DecidableEq, Repr

/-- The client's view: the allocator's fields, its own record of live blocks *with the bytes it
expects in them*, the blocks other parties got from `malloc` meanwhile, the sizes of the requests that
were answered with null, and the number of `construct` calls minus the number of `destroy` calls. -/
structure Client (A : Allocator) where
  st : A.St
  live : List (Nat × List UInt8)
  foreign : List (Nat × List UInt8)
  refused : List Nat := []
  built : Int := 0

/-- `construct`/`destroy` if present -/
def callOpt {A : Allocator} (c : Option (A.St → Nat → M A.St)) (s : A.St) (p : Nat) : M A.St :=
  match c with
  | some c => c s p
  | none => pure s

/-- Execute one step. -/
def Client.step (sys : Sys) {A : Allocator} (c : Client A) : Op → M (Client A)
  | .allocate n => do
    let r ← A.alloc c.st n
    if r.1 = 0 then pure { c with st := r.2, refused := n :: c.refused }
    else do
      let bs ← M.readBytes r.1 n
      pure { c with st := r.2, live := (r.1, bs) :: c.live }
  | .deallocate i =>
    match c.live[i]? with
    | none => pure c
    | some b => do
      let s ← A.dealloc c.st b.1 b.2.length
      pure { c with st := s, live := c.live.eraseIdx i }
  | .write i off v =>
    match c.live[i]? with
    | none => pure c
    | some b =>
      if off < b.2.length then do
        M.store (b.1 + off) v
        pure { c with live := c.live.set i (b.1, b.2.set off v) }
      else pure c
  | .construct i off =>
    match c.live[i]? with
    | none => pure c
    | some b => do
      let s ← callOpt A.construct c.st (b.1 + off)
      pure { c with st := s, built := c.built + 1 }
  | .destroy i off =>
    match c.live[i]? with
    | none => pure c
    | some b => do
      let s ← callOpt A.destroy c.st (b.1 + off)
      pure { c with st := s, built := c.built - 1 }
  | .foreign n => do
    let p ← cMalloc sys n
    if p = 0 then pure c
    else do
      let bs ← M.readBytes p n
      pure { c with foreign := (p, bs) :: c.foreign }

/-- Execute a list of steps. -/
def Client.run (sys : Sys) {A : Allocator} (c : Client A) : List Op → M (Client A)
  | [] => pure c
  | o :: os => do
    let c' ← c.step sys o
    c'.run sys os

/-- Construct an allocator object at address `b` and use it. -/
def play (sys : Sys) (A : Allocator) (b : Nat) (ops : List Op) : M (Client A) := do
  let s ← A.init b
  Client.run sys { st := s, live := [], foreign := [] } ops

/-- `[b, b+n)` is suitable storage for an object: allocated, aligned, not null, inside the address
space, not a malloc block of its own. -/
def Storage (w : World) (b n : Nat) : Prop :=
  b ≠ 0 ∧ b % 16 = 0 ∧ b + n < W64 ∧ ∀ x, b ≤ x → x < b + n → (w.heap.b x).isSome = true

/-- The requests of a history satisfy `P`. -/
def Requests (P : Nat → Prop) (ops : List Op) : Prop := ∀ n, Op.allocate n ∈ ops → n < W64 ∧ P n

/-! ### The invariant of a client (proof machinery) -/

/-- memory of the foreign blocks -/
def foreignV : List (Nat × List UInt8) → HProp
  | [] => emp
  | b :: R => (tok b.1 b.2.length ∗ bytesV b.1 b.2) ∗ foreignV R

def ClientInv {A : Allocator} {fA : Nat → Prop} (hA : Sound A fA) (b : Nat) (c : Client A) : HProp :=
  hA.Inv b c.st (c.live.map blk) ∗ blocksV c.live ∗ foreignV c.foreign

theorem perm_eraseIdx {α} {l : List α} {i : Nat} {x : α} (h : l[i]? = some x) :
    l.Perm (x :: l.eraseIdx i) := by
  induction l generalizing i with
  | nil => simp at h
  | cons a l ih =>
    cases i with
    | zero => simp at h; subst h; simp
    | succ i =>
      simp only [List.getElem?_cons_succ] at h
      simp only [List.eraseIdx_cons_succ]
      exact ((ih h).cons a).trans (.swap _ _ _)

theorem perm_set {α} {l : List α} {i : Nat} {x y : α} (h : l[i]? = some x) :
    (l.set i y).Perm (y :: l.eraseIdx i) := by
  induction l generalizing i with
  | nil => simp at h
  | cons a l ih =>
    cases i with
    | zero => simp
    | succ i =>
      simp only [List.getElem?_cons_succ] at h
      simp only [List.set_cons_succ, List.eraseIdx_cons_succ]
      exact ((ih h).cons a).trans (.swap _ _ _)

/-- Storing one byte of a block. -/
theorem triple_storeV (p : Nat) (bs : List UInt8) (off : Nat) (v : UInt8) (h : off < bs.length) :
    Triple (bytesV p bs) (M.store (p + off) v) (fun _ => bytesV p (bs.set off v)) := by
  have e1 : bs = bs.take off ++ [bs[off]] ++ bs.drop (off + 1) := by simp
  have e2 : bs.set off v = bs.take off ++ [v] ++ bs.drop (off + 1) := by
    rw [List.set_eq_take_append_cons_drop]; simp [h]
  have hl : (bs.take off).length = off := by simp; omega
  have key : ∀ y : UInt8, bytesV p (bs.take off ++ [y] ++ bs.drop (off + 1)) =
    (bytesV (p + off) [y] ∗ (bytesV p (bs.take off) ∗ bytesV (p + (off + 1)) (bs.drop (off + 1)))) := by
    intro y
    rw [bytesV_append, bytesV_append, hl]
    simp only [List.length_append, hl, List.length_singleton]
    ac_rfl
  have e3 : bytesV p bs = _ := (congrArg (bytesV p) e1).trans (key bs[off])
  rw [e2, key v, e3]
  exact (triple_store (p + off) bs[off] v).frame _

theorem triple_readAny (p n : Nat) :
    Triple (bytes p n) (M.readBytes p n) (fun bs s => bs.length = n ∧ bytesV p bs s) := by
  rw [bytes_eq_exists]
  refine Triple.exists (fun bs => Triple.and (fun hl => ?_))
  subst hl
  refine (triple_readBytes p bs).post ?_
  rintro r s ⟨rfl, h⟩
  exact ⟨rfl, h⟩

theorem step_spec (sys : Sys) {A : Allocator} {fA : Nat → Prop} (hA : Sound A fA) (b : Nat) (c : Client A) (o : Op)
    (ho : ∀ n, o = .allocate n → n < W64 ∧ fA n) :
    Triple (ClientInv hA b c) (c.step sys o) (fun c' => ClientInv hA b c') := by
  unfold ClientInv
  cases o with
  | allocate n =>
    obtain ⟨hn, hf⟩ := ho n rfl
    refine Triple.bind ((hA.alloc_spec b c.st _ n hf hn).frame _) (fun r => ?_)
    by_cases hr : r.1 = 0
    · simp only [hr, if_true]
      refine Triple.pure _ (fun h hh => ?_)
      obtain ⟨h1, h2, hd, rfl, h3 | h3, h4⟩ := hh
      · exact ⟨h1, h2, hd, rfl, h3.2, h4⟩
      · exact absurd rfl h3.1.1
    · simp only [hr, if_false]
      refine Triple.pre (P := bytes r.1 n ∗ (hA.Inv b r.2 ((r.1, n) :: c.live.map blk) ∗ blocksV c.live ∗ foreignV c.foreign)) ?_ ?_
      · refine Triple.bind ((triple_readAny r.1 n).frame _) (fun bs => ?_)
        rw [star_and]
        refine Triple.and (fun hl => Triple.pure _ (fun h hh => ?_))
        simp only [List.map_cons, blk, hl, blocksV]
        have e : (hA.Inv b r.2 ((r.1, n) :: c.live.map blk) ∗ (bytesV r.1 bs ∗ blocksV c.live) ∗ foreignV c.foreign) =
          (bytesV r.1 bs ∗ (hA.Inv b r.2 ((r.1, n) :: c.live.map blk) ∗ blocksV c.live ∗ foreignV c.foreign)) := by ac_rfl
        show (hA.Inv b r.2 ((r.1, n) :: c.live.map blk) ∗ (bytesV r.1 bs ∗ blocksV c.live) ∗ foreignV c.foreign) h
        rw [e]; exact hh
      · rintro h ⟨h1, h2, hd, rfl, h3 | h3, h4⟩
        · exact h3.1.elim
        · have h5 : ((hA.Inv b r.2 ((r.1, n) :: c.live.map blk) ∗ bytes r.1 n) ∗ (blocksV c.live ∗ foreignV c.foreign)) (h1.add h2) :=
            ⟨h1, h2, hd, rfl, h3.2, h4⟩
          have e : ((hA.Inv b r.2 ((r.1, n) :: c.live.map blk) ∗ bytes r.1 n) ∗ (blocksV c.live ∗ foreignV c.foreign)) =
            (bytes r.1 n ∗ (hA.Inv b r.2 ((r.1, n) :: c.live.map blk) ∗ blocksV c.live ∗ foreignV c.foreign)) := by ac_rfl
          rw [e] at h5; exact h5
  | deallocate i =>
    simp only [Client.step]
    cases hi : c.live[i]? with
    | none => exact Triple.pure _ (fun h hh => hh)
    | some x =>
      simp only
      have hp := perm_eraseIdx hi
      rw [blocksV_perm hp]
      refine Triple.bind (R := fun s => (hA.Inv b s ((c.live.eraseIdx i).map blk) ∗ blocksV (c.live.eraseIdx i)) ∗ foreignV c.foreign) ?_ (fun s => ?_)
      · refine ((hA.dealloc_spec b c.st x.1 x.2 (c.live.eraseIdx i)).frame (foreignV c.foreign)).pre ?_
        intro h hh
        rw [star_assoc, ← blocksV_cons]
        exact star_mono_left (fun _ h => hA.perm (hp.map blk) h) _ hh
      · refine Triple.pure _ (fun h hh => ?_)
        rw [star_assoc] at hh
        exact hh
  | write i off v =>
    simp only [Client.step]
    cases hi : c.live[i]? with
    | none => exact Triple.pure _ (fun h hh => hh)
    | some x =>
      simp only
      have hp := perm_eraseIdx hi
      by_cases hoff : off < x.2.length
      · simp only [hoff, if_true]
        have hs := perm_set (y := (x.1, x.2.set off v)) hi
        rw [blocksV_perm hp]
        refine Triple.bind (R := fun _ => bytesV x.1 (x.2.set off v) ∗
          (hA.Inv b c.st (c.live.map blk) ∗ blocksV (c.live.eraseIdx i) ∗ foreignV c.foreign)) ?_ (fun _ => ?_)
        · refine ((triple_storeV x.1 x.2 off v hoff).frame
            (hA.Inv b c.st (c.live.map blk) ∗ blocksV (c.live.eraseIdx i) ∗ foreignV c.foreign)).pre ?_
          intro h hh
          have e : (hA.Inv b c.st (c.live.map blk) ∗ blocksV (x :: c.live.eraseIdx i) ∗ foreignV c.foreign) =
            (bytesV x.1 x.2 ∗ (hA.Inv b c.st (c.live.map blk) ∗ blocksV (c.live.eraseIdx i) ∗ foreignV c.foreign)) := by
            rw [blocksV_cons]; ac_rfl
          rw [← e]; exact hh
        · refine Triple.pure _ (fun h hh => ?_)
          have em : (c.live.set i (x.1, x.2.set off v)).map blk = c.live.map blk := by
            rw [List.map_set]
            have : (c.live.map blk)[i]? = some (blk (x.1, x.2.set off v)) := by
              rw [List.getElem?_map, hi]; simp [blk]
            apply List.ext_getElem?
            intro j
            by_cases hj : i = j
            · subst hj
              rw [this, List.getElem?_set_self (by rw [List.getElem?_eq_some_iff] at this; exact this.1)]
            · rw [List.getElem?_set_ne hj]
          show (hA.Inv b c.st ((c.live.set i (x.1, x.2.set off v)).map blk) ∗ blocksV (c.live.set i (x.1, x.2.set off v)) ∗ foreignV c.foreign) h
          rw [em, blocksV_perm hs]
          have e : (hA.Inv b c.st (c.live.map blk) ∗ blocksV ((x.1, x.2.set off v) :: c.live.eraseIdx i) ∗ foreignV c.foreign) =
            (bytesV x.1 (x.2.set off v) ∗ (hA.Inv b c.st (c.live.map blk) ∗ blocksV (c.live.eraseIdx i) ∗ foreignV c.foreign)) := by
            rw [blocksV_cons]; ac_rfl
          rw [e]; exact hh
      · simp only [hoff, if_false]
        exact Triple.pure _ (fun h hh => hh)
  | construct i off =>
    simp only [Client.step]
    cases hi : c.live[i]? with
    | none => exact Triple.pure _ (fun h hh => hh)
    | some x =>
      simp only
      refine Triple.bind (R := fun s => hA.Inv b s (c.live.map blk) ∗ blocksV c.live ∗ foreignV c.foreign) ?_ (fun s => ?_)
      · unfold callOpt
        cases hc : A.construct with
        | none => exact Triple.pure _ (fun _ h => h)
        | some f => exact (hA.construct_spec f hc b c.st _ _).frame _
      · exact Triple.pure _ (fun h hh => hh)
  | destroy i off =>
    simp only [Client.step]
    cases hi : c.live[i]? with
    | none => exact Triple.pure _ (fun h hh => hh)
    | some x =>
      simp only
      refine Triple.bind (R := fun s => hA.Inv b s (c.live.map blk) ∗ blocksV c.live ∗ foreignV c.foreign) ?_ (fun s => ?_)
      · unfold callOpt
        cases hc : A.destroy with
        | none => exact Triple.pure _ (fun _ h => h)
        | some f => exact (hA.destroy_spec f hc b c.st _ _).frame _
      · exact Triple.pure _ (fun h hh => hh)
  | foreign n =>
    simp only [Client.step]
    have := (triple_cMalloc sys n).frame (hA.Inv b c.st (c.live.map blk) ∗ blocksV c.live ∗ foreignV c.foreign)
    rw [emp_star] at this
    refine Triple.bind this (fun p => ?_)
    by_cases hp : p = 0
    · simp only [hp, if_true]
      refine Triple.pure _ (fun h hh => ?_)
      obtain ⟨h1, h2, hd, rfl, h3 | h3, h4⟩ := hh
      · have : h1 = Heap.empty := h3.2
        subst this
        rw [Heap.empty_add]; exact h4
      · exact absurd h3.1 (by omega)
    · simp only [hp, if_false]
      refine Triple.pre (P := bytes p n ∗ (tok p n ∗ (hA.Inv b c.st (c.live.map blk) ∗ blocksV c.live ∗ foreignV c.foreign))) ?_ ?_
      · refine Triple.bind ((triple_readAny p n).frame _) (fun bs => ?_)
        rw [star_and]
        refine Triple.and (fun hl => Triple.pure _ (fun h hh => ?_))
        subst hl
        simp only [foreignV]
        have e : (hA.Inv b c.st (c.live.map blk) ∗ blocksV c.live ∗ ((tok p bs.length ∗ bytesV p bs) ∗ foreignV c.foreign)) =
          (bytesV p bs ∗ (tok p bs.length ∗ (hA.Inv b c.st (c.live.map blk) ∗ blocksV c.live ∗ foreignV c.foreign))) := by ac_rfl
        rw [e]; exact hh
      · rintro h ⟨h1, h2, hd, rfl, h3 | h3, h4⟩
        · exact h3.1.elim
        · have h5 : ((tok p n ∗ bytes p n) ∗ (hA.Inv b c.st (c.live.map blk) ∗ blocksV c.live ∗ foreignV c.foreign)) (h1.add h2) :=
            ⟨h1, h2, hd, rfl, h3.2.2.2, h4⟩
          have e : ((tok p n ∗ bytes p n) ∗ (hA.Inv b c.st (c.live.map blk) ∗ blocksV c.live ∗ foreignV c.foreign)) =
            (bytes p n ∗ (tok p n ∗ (hA.Inv b c.st (c.live.map blk) ∗ blocksV c.live ∗ foreignV c.foreign))) := by ac_rfl
          rw [e] at h5; exact h5

theorem run_spec (sys : Sys) {A : Allocator} {fA : Nat → Prop} (hA : Sound A fA) (b : Nat) (ops : List Op) (c : Client A)
    (ho : Requests fA ops) :
    Triple (ClientInv hA b c) (c.run sys ops) (fun c' => ClientInv hA b c') := by
  induction ops generalizing c with
  | nil => exact Triple.pure _ (fun _ h => h)
  | cons o os ih =>
    refine Triple.bind (step_spec sys hA b c o (fun n h => ho n (by simp [h]))) (fun c' => ?_)
    exact ih c' (fun n h => ho n (List.mem_cons_of_mem _ h))

theorem play_spec (sys : Sys) {A : Allocator} {fA : Nat → Prop} (hA : Sound A fA) (b : Nat) (ops : List Op)
    (h1 : b ≠ 0) (h2 : b % 16 = 0) (h3 : b + A.objSize < W64) (ho : Requests fA ops) :
    Triple (bytes b A.objSize) (play sys A b ops) (fun c' => ClientInv hA b c') := by
  refine Triple.bind (hA.init_spec b h1 h2 h3) (fun s => ?_)
  refine (run_spec sys hA b ops { st := s, live := [], foreign := [] } ho).pre (fun h hh => ?_)
  simp only [ClientInv, List.map_nil, blocksV, foreignV, star_emp]
  exact hh

/-- Split the memory of a world into an object's storage and the rest. -/
theorem storage_split {w : World} {b n : Nat} (h : Storage w b n) :
    ∃ hs hf, Heap.disj hs hf ∧ w.heap = hs.add hf ∧ bytes b n hs ∧
      (∀ x, hf.b x = if b ≤ x ∧ x < b + n then none else w.heap.b x) ∧ hf.t = w.heap.t := by
  refine ⟨⟨fun x => if b ≤ x ∧ x < b + n then w.heap.b x else none, fun _ => none⟩,
    ⟨fun x => if b ≤ x ∧ x < b + n then none else w.heap.b x, w.heap.t⟩, ⟨fun x => ?_, fun x => .inl rfl⟩, ?_, ⟨fun _ => rfl, fun x => ?_⟩, fun _ => rfl, rfl⟩
  · by_cases hx : b ≤ x ∧ x < b + n <;> simp [hx]
  · apply Heap.ext'
    · intro x
      by_cases hx : b ≤ x ∧ x < b + n <;> simp [hx]
    · intro x; simp
  · show _ ↔ (b ≤ x ∧ x < b + n)
    by_cases hx : b ≤ x ∧ x < b + n
    · simp [hx, h.2.2.2 x hx.1 hx.2]
    · simp [hx]

end KTL
