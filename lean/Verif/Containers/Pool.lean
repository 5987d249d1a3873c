import Verif.Spec.History
import Verif.Alloc.Handles

/- Memory access of the containers: `memcpy`, `memmove`, typed allocation whose result is not checked, and
the rules for them (proof machinery: `Pool`). -/
namespace KTL

/-- C `memcpy`: undefined if the two ranges overlap (a null pointer with size 0 is accepted).
C++ machine, not library code. -/
def M.memcpy (dst src n : Nat) : M Unit :=
  if src < dst + n ∧ dst < src + n then M.ub else do
    let bs ← M.readBytes src n
    M.writeBytes dst bs

/-- C `memmove`. C++ machine, not library code. -/
def M.memmove (dst src n : Nat) : M Unit := do
  let bs ← M.readBytes src n
  M.writeBytes dst bs

/-- `Traits::allocate(m_Alloc, n)` as the containers use it, `m_Alloc` being a `type_allocator` over (a handle
of) an allocator object with fields `s` (`allocators/type_allocator.h:98-102`). No container checks for null;
simplification: the program is stopped (`oom`) right here and not at the first access through the pointer. -/
def grab (sz : Nat) (A : Allocator) (s : A.St) (n : Nat) : M (Nat × A.St) := do
  let r ← typedAlloc sz A s n
  if r.1 = 0 ∧ n ≠ 0 then M.oom else pure r

/-- The memory of an allocator object at `b` and the blocks its clients hold. Proof helper, not code. -/
def Pool {A : Allocator} {fA : Nat → Prop} (hA : Sound A fA) (b : Nat) (s : A.St) (R : List (Nat × List UInt8)) : HProp :=
  hA.Inv b s (R.map blk) ∗ blocksV R

section
variable {A : Allocator} {fA : Nat → Prop} {hA : Sound A fA} {b : Nat} {s : A.St}

theorem Pool.perm {R S : List (Nat × List UInt8)} (h : R.Perm S) : Pool hA b s R = Pool hA b s S := by
  unfold Pool
  rw [blocksV_perm h]
  congr 1
  funext x
  exact propext ⟨hA.perm (h.map blk), hA.perm (h.symm.map blk)⟩

theorem triple_grab (sz n : Nat) (R : List (Nat × List UInt8)) (hf : fA (sz * n)) (hn : sz * n < W64) :
    Triple (Pool hA b s R) (grab sz A s n) (fun r x =>
      (r.1 = 0 ∧ n = 0 ∧ Pool hA b r.2 R x) ∨
      (Good r.1 (sz * n) ∧ ∃ bs, bs.length = sz * n ∧ Pool hA b r.2 ((r.1, bs) :: R) x)) := by
  unfold grab typedAlloc
  have hm : mulW sz n = sz * n := Nat.mod_eq_of_lt hn
  rw [hm]
  refine Triple.bind ((hA.alloc_spec b s (R.map blk) (sz * n) hf hn).frame (blocksV R)) (fun r => ?_)
  split
  · exact Triple.oom
  · rename_i hc
    refine Triple.pure _ (fun x hx => ?_)
    obtain ⟨h1, h2, hd, rfl, h3, h4⟩ := hx
    rcases h3 with ⟨h0, h3⟩ | ⟨hg, h3⟩
    · left
      refine ⟨h0, ?_, h1, h2, hd, rfl, h3, h4⟩
      exact Classical.byContradiction fun h => hc ⟨h0, h⟩
    · right
      refine ⟨hg, ?_⟩
      obtain ⟨h5, h6, hd', rfl, h7, h8⟩ := h3
      obtain ⟨bs, hl, h8⟩ := bytes_exists h8
      refine ⟨bs, hl, ?_⟩
      have : ((hA.Inv b r.2 ((r.1, sz * n) :: R.map blk) ∗ bytesV r.1 bs) ∗ blocksV R) ((h5.add h6).add h2) :=
        ⟨_, _, hd, rfl, ⟨_, _, hd', rfl, h7, h8⟩, h4⟩
      rw [star_assoc] at this
      show (hA.Inv b r.2 ((r.1, bs.length) :: R.map blk) ∗ (bytesV r.1 bs ∗ blocksV R)) _
      rw [hl]; exact this

theorem triple_ungrab (sz n p : Nat) (bs : List UInt8) (R R' : List (Nat × List UInt8)) (hR : R.Perm ((p, bs) :: R'))
    (hl : bs.length = sz * n) (hn : sz * n < W64) :
    Triple (Pool hA b s R) (typedDealloc sz A s p n) (fun s' => Pool hA b s' R') := by
  unfold typedDealloc
  have hm : mulW sz n = sz * n := Nat.mod_eq_of_lt hn
  rw [hm, Pool.perm hR, ← hl]
  exact hA.dealloc_spec b s p bs R'

theorem triple_poolRead (p off n : Nat) (bs : List UInt8) (R R' : List (Nat × List UInt8)) (hR : R.Perm ((p, bs) :: R'))
    (hn : off + n ≤ bs.length) :
    Triple (Pool hA b s R) (M.readBytes (p + off) n) (fun r x => r = (bs.drop off).take n ∧ Pool hA b s R x) := by
  rw [Pool.perm hR]
  have e1 : bs = bs.take off ++ ((bs.drop off).take n ++ bs.drop (off + n)) := by
    rw [← List.drop_drop, List.take_append_drop, List.take_append_drop]
  have e2 : ((bs.drop off).take n).length = n := by simp; omega
  have e3 : (bs.take off).length = off := by simp; omega
  have key : Pool hA b s ((p, bs) :: R') = (bytesV (p + off) ((bs.drop off).take n) ∗
      (bytesV p (bs.take off) ∗ bytesV (p + off + n) (bs.drop (off + n)) ∗ hA.Inv b s (((p, bs) :: R').map blk) ∗ blocksV R')) := by
    unfold Pool
    rw [blocksV_cons]
    conv => lhs; rw [show bytesV (p, bs).1 (p, bs).2 = bytesV p (bs.take off ++ ((bs.drop off).take n ++ bs.drop (off + n)))
      from congrArg _ e1, bytesV_append, bytesV_append, e2, e3]
    ac_rfl
  rw [key]
  have h := (triple_readBytes (p + off) ((bs.drop off).take n)).frame
    (bytesV p (bs.take off) ∗ bytesV (p + off + n) (bs.drop (off + n)) ∗ hA.Inv b s (((p, bs) :: R').map blk) ∗ blocksV R')
  rw [e2] at h
  refine h.post (fun a x hx => ?_)
  rw [star_and] at hx; exact hx

/-- the block after writing `ds` at `off`. Proof helper, not code. -/
def splice (bs : List UInt8) (off : Nat) (ds : List UInt8) : List UInt8 :=
  bs.take off ++ (ds ++ bs.drop (off + ds.length))

theorem splice_length {bs : List UInt8} {off : Nat} {ds : List UInt8} (h : off + ds.length ≤ bs.length) :
    (splice bs off ds).length = bs.length := by simp [splice]; omega

theorem triple_poolWrite (p off : Nat) (bs ds : List UInt8) (R R' : List (Nat × List UInt8)) (hR : R.Perm ((p, bs) :: R'))
    (hn : off + ds.length ≤ bs.length) :
    Triple (Pool hA b s R) (M.writeBytes (p + off) ds) (fun _ => Pool hA b s ((p, splice bs off ds) :: R')) := by
  rw [Pool.perm hR]
  have e1 : bs = bs.take off ++ ((bs.drop off).take ds.length ++ bs.drop (off + ds.length)) := by
    rw [← List.drop_drop, List.take_append_drop, List.take_append_drop]
  have e2 : ((bs.drop off).take ds.length).length = ds.length := by simp; omega
  have e3 : (bs.take off).length = off := by simp; omega
  have e4 : (splice bs off ds).length = bs.length := splice_length hn
  have key : Pool hA b s ((p, bs) :: R') = (bytesV (p + off) ((bs.drop off).take ds.length) ∗
      (bytesV p (bs.take off) ∗ bytesV (p + off + ds.length) (bs.drop (off + ds.length)) ∗
        hA.Inv b s ((p, bs.length) :: R'.map blk) ∗ blocksV R')) := by
    unfold Pool
    rw [blocksV_cons]
    conv => lhs; rw [show bytesV (p, bs).1 (p, bs).2 = bytesV p (bs.take off ++ ((bs.drop off).take ds.length ++ bs.drop (off + ds.length)))
      from congrArg _ e1, bytesV_append, bytesV_append, e2, e3]
    show (hA.Inv b s ((p, bs.length) :: R'.map blk) ∗ _) = _
    ac_rfl
  have key2 : Pool hA b s ((p, splice bs off ds) :: R') = (bytesV (p + off) ds ∗
      (bytesV p (bs.take off) ∗ bytesV (p + off + ds.length) (bs.drop (off + ds.length)) ∗
        hA.Inv b s ((p, bs.length) :: R'.map blk) ∗ blocksV R')) := by
    unfold Pool
    rw [blocksV_cons]
    show (hA.Inv b s ((p, (splice bs off ds).length) :: R'.map blk) ∗ (bytesV p (splice bs off ds) ∗ _)) = _
    rw [e4]
    unfold splice
    rw [bytesV_append, bytesV_append, e3]
    ac_rfl
  rw [key, key2]
  refine ((triple_writeBytes (p + off) ds).frame _).pre (fun x hx => ?_)
  refine star_mono_left (fun y hy => ?_) _ hx
  have := bytesV_length hy
  rwa [e2] at this

/-- two blocks of a pool do not overlap -/
theorem Pool.disjoint {R R'' : List (Nat × List UInt8)} {p q : Nat} {bs cs : List UInt8} {x : Heap}
    (hR : R.Perm ((p, bs) :: (q, cs) :: R'')) (h : Pool hA b s R x) :
    p + bs.length ≤ q ∨ q + cs.length ≤ p ∨ bs.length = 0 ∨ cs.length = 0 := by
  obtain ⟨_, h2, _, _, _, h3⟩ := h
  rw [blocksV_perm hR] at h3
  obtain ⟨h4, h5, hd, rfl, h6, h7, h8, hd', rfl, h9, _⟩ := h3
  have key : ∀ y, ¬ ((p ≤ y ∧ y < p + bs.length) ∧ (q ≤ y ∧ y < q + cs.length)) := fun y ⟨hy1, hy2⟩ =>
    disj_isSome (Heap.disj_add_right.1 hd).1 (bytesV_isSome h6 hy1) (bytesV_isSome h9 hy2)
  have k1 := key p
  have k2 := key q
  omega

/-- copying between two blocks -/
theorem triple_poolCopy (p off q off' n : Nat) (bs cs : List UInt8) (R R'' : List (Nat × List UInt8))
    (hR : R.Perm ((p, bs) :: (q, cs) :: R'')) (h1 : off + n ≤ bs.length) (h2 : off' + n ≤ cs.length) :
    Triple (Pool hA b s R) (M.memcpy (p + off) (q + off') n)
      (fun _ => Pool hA b s ((p, splice bs off ((cs.drop off').take n)) :: (q, cs) :: R'')) := by
  have e2 : ((cs.drop off').take n).length = n := by simp; omega
  refine Triple.have (fun x hx => Pool.disjoint hR hx) (fun hd => ?_)
  unfold M.memcpy
  rw [if_neg (by omega)]
  refine Triple.bind (triple_poolRead q off' n cs R ((p, bs) :: R'') (hR.trans (.swap _ _ _)) h2) (fun r => ?_)
  refine Triple.and (fun hr => ?_)
  subst hr
  exact triple_poolWrite p off bs _ R _ hR (by rw [e2]; exact h1)

/-- moving inside one block -/
theorem triple_poolMove (p off off' n : Nat) (bs : List UInt8) (R R' : List (Nat × List UInt8))
    (hR : R.Perm ((p, bs) :: R')) (h1 : off + n ≤ bs.length) (h2 : off' + n ≤ bs.length) :
    Triple (Pool hA b s R) (M.memmove (p + off) (p + off') n)
      (fun _ => Pool hA b s ((p, splice bs off ((bs.drop off').take n)) :: R')) := by
  have e2 : ((bs.drop off').take n).length = n := by simp; omega
  unfold M.memmove
  refine Triple.bind (triple_poolRead p off' n bs R R' hR h2) (fun r => ?_)
  refine Triple.and (fun hr => ?_)
  subst hr
  exact triple_poolWrite p off bs _ R _ hR (by rw [e2]; exact h1)
end
end KTL
