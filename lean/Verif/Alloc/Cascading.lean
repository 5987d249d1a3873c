import Verif.Alloc.Malloc
import Verif.Alloc.Fallback

/- `cascading<Alloc>` and `shared<Alloc>` with a single handle. -/
namespace KTL

namespace Cascading

/-- `allocators/cascading.h:37-42` `struct node`: its address, the `Allocator` member and the
`Allocations` counter. The `Next` links are the order of the Lean list of nodes (they are private and
never visible to the client). -/
structure Node (α : Type) where
  addr : Nat
  st : α
  cnt : Nat

/-- `sizeof(node)`. `allocators/cascading.h:37-42`, rounded up to 16. -/
def nodeSize (A : Allocator) : Nat := A.objSize + 16

/-- `--next->Allocations` on a `size_t` (increments are modelled without wrap-around: every live block
takes at least one byte, so the counter cannot reach 2^64). `allocators/cascading.h:150`. -/
def decr (c : Nat) : Nat := if c = 0 then W64 - 1 else c - 1

/-- `detail::aligned_new<node>(ALIGNMENT)`. Used in `allocators/cascading.h:100` and `:115`. -/
def newNode (sys : Sys) (A : Allocator) : M (Node A.St) := do
  let r ← alignedNew sys (nodeSize A) A.init
  pure ⟨r.1, r.2, 0⟩

/-- `allocators/cascading.h:98-100`: the node list after "add an initial allocator". -/
def ensure (sys : Sys) (A : Allocator) (s : List (Node A.St)) : M (List (Node A.St)) :=
  match s with
  | [] => do
    let nd ← newNode sys A
    pure [nd]
  | _ => pure s

/-- `allocators/cascading.h:108-124`: allocate from the front node, or from a new one. -/
def allocFront (sys : Sys) (A : Allocator) (nd : Node A.St) (rest : List (Node A.St)) (n : Nat) :
    M (Nat × List (Node A.St)) := do
  let r ← A.alloc nd.st n
  if r.1 = 0 then do
    let nd2 ← newNode sys A
    let q ← A.alloc nd2.st n
    pure (q.1, ⟨nd2.addr, q.2, if q.1 ≠ 0 then nd2.cnt + 1 else nd2.cnt⟩ :: ⟨nd.addr, r.2, nd.cnt⟩ :: rest)
  else pure (r.1, ⟨nd.addr, r.2, nd.cnt + 1⟩ :: rest)

/-- `allocators/cascading.h:93-125` `allocate`. -/
def alloc (sys : Sys) (A : Allocator) (s : List (Node A.St)) (n : Nat) : M (Nat × List (Node A.St)) := do
  let s' ← ensure sys A s
  match s' with
  | [] => M.ub
  | nd :: rest =>
    match A.maxSize with
    | none => allocFront sys A nd rest n
    | some f =>
      match f nd.st with
      | none => M.ub
      | some m => if n > m then pure (0, s') else allocFront sys A nd rest n

/-- `allocators/cascading.h:133-163` `deallocate`; `prev` = there is a node before this one. -/
def dealloc (sys : Sys) (A : Allocator) (p n : Nat) (prev : Bool) : List (Node A.St) → M (List (Node A.St))
  | [] => pure []
  | nd :: rest =>
    if A.ownsD nd.st p then do
      let st ← A.dealloc nd.st p n
      let cnt := decr nd.cnt
      if cnt = 0 ∧ prev = true then do
        alignedDelete sys nd.addr (A.fini st)
        pure rest
      else pure (⟨nd.addr, st, cnt⟩ :: rest)
    else do
      let rest' ← dealloc sys A p n true rest
      pure (nd :: rest')

/-- `allocators/cascading.h:174-225` `construct`/`destroy`: the first owning node does it; if there is
none, act directly. -/
def routeGo (A : Allocator) (c : A.St → Nat → M A.St) (ev : Nat → Ev) (p : Nat) :
    List (Node A.St) → M (List (Node A.St))
  | [] => do
    M.event (ev p)
    pure []
  | nd :: rest =>
    if A.ownsD nd.st p then do
      let st ← c nd.st p
      pure (⟨nd.addr, st, nd.cnt⟩ :: rest)
    else do
      let rest' ← routeGo A c ev p rest
      pure (nd :: rest')

/-- `allocators/cascading.h:264-281` `release`. -/
def release (sys : Sys) (A : Allocator) : List (Node A.St) → M Unit
  | [] => pure ()
  | nd :: rest => do
    alignedDelete sys nd.addr (A.fini nd.st)
    release sys A rest

end Cascading

/-- `cascading<Alloc>` (`allocators/cascading.h`): constructor `:45-46`, destructor `:57-60`,
`max_size` `:234-240` (dereferences `m_Node` without a check), `owns` `:247-260`. -/
def cascading (sys : Sys) (A : Allocator) : Allocator where
  St := List (Cascading.Node A.St)
  objSize := 16
  init _ := pure []
  alloc s n := Cascading.alloc sys A s n
  dealloc s p n := Cascading.dealloc sys A p n false s
  owns := some fun s p => s.any fun nd => A.ownsD nd.st p
  maxSize := A.maxSize.map fun f s =>
    match s with
    | [] => none
    | nd :: _ => f nd.st
  construct := A.construct.map fun c s p => Cascading.routeGo A c .ctor p s
  destroy := A.destroy.map fun c s p => Cascading.routeGo A c .dtor p s
  fini s := Cascading.release sys A s

/-- `max_size`, where it exists, never dereferences a null pointer and is the same for all instances.
Specification, not code. -/
def MaxTotal (A : Allocator) : Prop := ∀ f, A.maxSize = some f → ∃ m, ∀ s, f s = some m

namespace Cascading

variable {A : Allocator} {fA : Nat → Prop}

/-- memory of the nodes, each with the blocks it serves. Proof helper, not code. -/
def nodesInv (plat : Plat) (hA : Sound A fA) : List (Node A.St × List (Nat × Nat)) → HProp
  | [] => emp
  | x :: NL => (hA.Inv x.1.addr x.1.st x.2 ∗ bytes (x.1.addr + A.objSize) 16 ∗ mTok plat x.1.addr (nodeSize A)) ∗
      nodesInv plat hA NL

/-- Proof helper, not code. -/
def NodesOk (NL : List (Node A.St × List (Nat × Nat))) : Prop :=
  ∀ x ∈ NL, x.1.cnt = x.2.length ∧ x.1.addr ≠ 0

/-- Specification, not code. -/
def Fits (fA : Nat → Prop) (n : Nat) : Prop := n ≠ 0 ∧ fA n

theorem newNode_spec (sys : Sys) (hA : Sound A fA) (hsz : MallocFits sys.plat (nodeSize A)) :
    Triple emp (newNode sys A) (fun nd h => (nd.cnt = 0 ∧ nd.addr ≠ 0) ∧
      (hA.Inv nd.addr nd.st [] ∗ bytes (nd.addr + A.objSize) 16 ∗ mTok sys.plat nd.addr (nodeSize A)) h) := by
  unfold newNode
  refine Triple.bind (R := fun r h => (r.1 ≠ 0) ∧
      (hA.Inv r.1 r.2 [] ∗ bytes (r.1 + A.objSize) 16 ∗ mTok sys.plat r.1 (nodeSize A)) h) ?_ (fun r => ?_)
  · unfold alignedNew
    refine Triple.bindNull (alignedMalloc_spec sys _ hsz) (alignedMalloc_null sys _ hsz) (fun p hp => ?_)
    · refine Triple.or (Triple.false (fun _ h => hp h.1)) ?_
      refine Triple.and (fun hg => ?_)
      have e : (mTok sys.plat p (nodeSize A) ∗ bytes p (nodeSize A)) =
        (bytes p A.objSize ∗ bytes (p + A.objSize) 16 ∗ mTok sys.plat p (nodeSize A)) := by
        have : nodeSize A = A.objSize + 16 := rfl
        conv => lhs; rw [show bytes p (nodeSize A) = bytes p (A.objSize + 16) from rfl, bytes_split]
        ac_rfl
      rw [e]
      refine Triple.bind ((hA.init_spec p hp hg.2.1 ?_).frame _) (fun st => ?_)
      · have := hg.2.2; unfold nodeSize at this; omega
      · exact Triple.pure _ (fun h hh => ⟨hp, hh⟩)
  · refine Triple.and (fun hr => Triple.pure _ (fun h hh => ⟨⟨rfl, hr⟩, hh⟩))

theorem allocFront_spec (sys : Sys) (hA : Sound A fA) (hsz : MallocFits sys.plat (nodeSize A))
    (nd : Node A.St) (Li : List (Nat × Nat)) (NL : List (Node A.St × List (Nat × Nat))) (n : Nat)
    (hok : NodesOk ((nd, Li) :: NL)) (hf : Fits fA n) (hn : n < W64) :
    Triple (nodesInv sys.plat hA ((nd, Li) :: NL)) (allocFront sys A nd (NL.map Prod.fst) n)
      (fun r h => ∃ NL', (NL'.map Prod.fst = r.2 ∧ NodesOk NL') ∧
        ((r.1 = 0 ∧ NL'.flatMap Prod.snd = ((nd, Li) :: NL).flatMap Prod.snd ∧ nodesInv sys.plat hA NL' h) ∨
         (Good r.1 n ∧ NL'.flatMap Prod.snd = (r.1, n) :: ((nd, Li) :: NL).flatMap Prod.snd ∧
          (nodesInv sys.plat hA NL' ∗ bytes r.1 n) h))) := by
  obtain ⟨hc, ha⟩ := hok (nd, Li) (by simp)
  have hok' : NodesOk NL := fun x hx => hok x (List.mem_cons_of_mem _ hx)
  simp only at hc ha
  unfold allocFront
  simp only [nodesInv]
  rw [star_assoc]
  refine Triple.bind ((hA.alloc_spec nd.addr nd.st Li n hf.2 hn).frame _) (fun r => ?_)
  by_cases hr : r.1 = 0
  · simp only [hr, if_true]
    refine Triple.pre (P := emp ∗ nodesInv sys.plat hA ((⟨nd.addr, r.2, nd.cnt⟩, Li) :: NL)) ?_ ?_
    · refine Triple.bind ((newNode_spec sys hA hsz).frame _) (fun nd2 => ?_)
      rw [star_and]
      refine Triple.and (fun ⟨hc2, ha2⟩ => ?_)
      rw [star_assoc]
      refine Triple.bind ((hA.alloc_spec nd2.addr nd2.st [] n hf.2 hn).frame _) (fun q => ?_)
      refine Triple.pure _ (fun h hh => ?_)
      obtain ⟨h1, h2, hd, rfl, h3 | h3, h4⟩ := hh
      · refine ⟨(⟨nd2.addr, q.2, nd2.cnt⟩, []) :: (⟨nd.addr, r.2, nd.cnt⟩, Li) :: NL, ⟨?_, ?_⟩, .inl ⟨h3.1, ?_, ?_⟩⟩
        · simp [h3.1]
        · intro x hx
          rcases List.mem_cons.1 hx with rfl | hx
          · exact ⟨by simp [hc2], ha2⟩
          · rcases List.mem_cons.1 hx with rfl | hx
            · exact ⟨hc, ha⟩
            · exact hok' x hx
        · simp
        · rw [nodesInv, star_assoc]
          exact ⟨h1, h2, hd, rfl, h3.2, h4⟩
      · have hq : q.1 ≠ 0 := h3.1.1
        refine ⟨(⟨nd2.addr, q.2, nd2.cnt + 1⟩, [(q.1, n)]) :: (⟨nd.addr, r.2, nd.cnt⟩, Li) :: NL, ⟨?_, ?_⟩,
          .inr ⟨h3.1, ?_, ?_⟩⟩
        · simp [hq]
        · intro x hx
          rcases List.mem_cons.1 hx with rfl | hx
          · exact ⟨by simp [hc2], ha2⟩
          · rcases List.mem_cons.1 hx with rfl | hx
            · exact ⟨hc, ha⟩
            · exact hok' x hx
        · simp
        · have h5 : ((hA.Inv nd2.addr q.2 [(q.1, n)] ∗ bytes q.1 n) ∗
              ((bytes (nd2.addr + A.objSize) 16 ∗ mTok sys.plat nd2.addr (nodeSize A)) ∗
               nodesInv sys.plat hA ((⟨nd.addr, r.2, nd.cnt⟩, Li) :: NL))) (h1.add h2) := ⟨h1, h2, hd, rfl, h3.2, h4⟩
          have e : (nodesInv sys.plat hA ((⟨nd2.addr, q.2, nd2.cnt + 1⟩, [(q.1, n)]) :: (⟨nd.addr, r.2, nd.cnt⟩, Li) :: NL) ∗ bytes q.1 n) =
            ((hA.Inv nd2.addr q.2 [(q.1, n)] ∗ bytes q.1 n) ∗
              ((bytes (nd2.addr + A.objSize) 16 ∗ mTok sys.plat nd2.addr (nodeSize A)) ∗
               nodesInv sys.plat hA ((⟨nd.addr, r.2, nd.cnt⟩, Li) :: NL))) := by
            rw [nodesInv]
            generalize nodesInv sys.plat hA ((⟨nd.addr, r.2, nd.cnt⟩, Li) :: NL) = X
            simp only
            ac_rfl
          rw [e]; exact h5
    · rintro h ⟨h1, h2, hd, rfl, h3 | h3, h4⟩
      · rw [emp_star, nodesInv, star_assoc]
        exact ⟨h1, h2, hd, rfl, h3.2, h4⟩
      · exact absurd rfl h3.1.1
  · simp only [hr, if_false]
    refine Triple.pure _ (fun h hh => ?_)
    obtain ⟨h1, h2, hd, rfl, h3 | h3, h4⟩ := hh
    · exact h3.1.elim
    · refine ⟨(⟨nd.addr, r.2, nd.cnt + 1⟩, (r.1, n) :: Li) :: NL, ⟨by simp, ?_⟩, .inr ⟨h3.1, by simp, ?_⟩⟩
      · intro x hx
        rcases List.mem_cons.1 hx with rfl | hx
        · exact ⟨by simp [hc], ha⟩
        · exact hok' x hx
      · have h5 : ((hA.Inv nd.addr r.2 ((r.1, n) :: Li) ∗ bytes r.1 n) ∗
            ((bytes (nd.addr + A.objSize) 16 ∗ mTok sys.plat nd.addr (nodeSize A)) ∗ nodesInv sys.plat hA NL)) (h1.add h2) :=
          ⟨h1, h2, hd, rfl, h3.2, h4⟩
        have e : (nodesInv sys.plat hA ((⟨nd.addr, r.2, nd.cnt + 1⟩, (r.1, n) :: Li) :: NL) ∗ bytes r.1 n) =
          ((hA.Inv nd.addr r.2 ((r.1, n) :: Li) ∗ bytes r.1 n) ∗
            ((bytes (nd.addr + A.objSize) 16 ∗ mTok sys.plat nd.addr (nodeSize A)) ∗ nodesInv sys.plat hA NL)) := by
          rw [nodesInv]; simp only; ac_rfl
        rw [e]; exact h5

theorem alignedDelete_spec (sys : Sys) (hA : Sound A fA) (p : Nat) (hp : p ≠ 0) (st : A.St) :
    Triple (hA.Inv p st [] ∗ bytes (p + A.objSize) 16 ∗ mTok sys.plat p (nodeSize A))
      (alignedDelete sys p (A.fini st)) (fun _ => emp) := by
  unfold alignedDelete
  refine Triple.bind ((hA.fini_spec p st).frame _) (fun _ => ?_)
  refine (alignedFree_spec sys p (nodeSize A) hp).pre ?_
  intro h hh
  rw [← star_assoc, ← bytes_split, star_comm] at hh
  exact hh

/-- `dealloc` with another way to delete a node. Proof helper, not code. -/
def deallocBy (del : Nat → M Unit → M Unit) (A : Allocator) (p n : Nat) (prev : Bool) : List (Node A.St) → M (List (Node A.St))
  | [] => pure []
  | nd :: rest =>
    if A.ownsD nd.st p then do
      let st ← A.dealloc nd.st p n
      let cnt := decr nd.cnt
      if cnt = 0 ∧ prev = true then do
        del nd.addr (A.fini st)
        pure rest
      else pure (⟨nd.addr, st, cnt⟩ :: rest)
    else do
      let rest' ← deallocBy del A p n true rest
      pure (nd :: rest')

/-- `release` with another way to delete a node. Proof helper, not code. -/
def releaseBy (del : Nat → M Unit → M Unit) (A : Allocator) : List (Node A.St) → M Unit
  | [] => pure ()
  | nd :: rest => do
    del nd.addr (A.fini nd.st)
    releaseBy del A rest

/-- What deleting a node has to do. Proof helper, not code. -/
def Deletes (sys : Sys) (del : Nat → M Unit → M Unit) (hA : Sound A fA) : Prop := ∀ p, p ≠ 0 → ∀ st,
  Triple (hA.Inv p st [] ∗ bytes (p + A.objSize) 16 ∗ mTok sys.plat p (nodeSize A)) (del p (A.fini st)) (fun _ => emp)

theorem dealloc_by (sys : Sys) (A : Allocator) (p n : Nat) (prev : Bool) (s : List (Node A.St)) :
    dealloc sys A p n prev s = deallocBy (alignedDelete sys) A p n prev s := by
  induction s generalizing prev with
  | nil => rfl
  | cons nd rest ih => simp only [dealloc, deallocBy, ih]

theorem release_by (sys : Sys) (A : Allocator) (s : List (Node A.St)) : release sys A s = releaseBy (alignedDelete sys) A s := by
  induction s with
  | nil => rfl
  | cons nd rest ih => simp only [release, releaseBy, ih]

theorem deallocBy_spec (sys : Sys) (del : Nat → M Unit → M Unit) (hA : Sound A fA) (hdel : Deletes sys del hA)
    (f : A.St → Nat → Bool) (hf : A.owns = some f)
    (p : Nat) (bs : List UInt8) (hn : bs.length ≠ 0)
    (NL : List (Node A.St × List (Nat × Nat))) (R : List (Nat × List UInt8)) (prev : Bool)
    (hok : NodesOk NL) (hperm : ((p, bs.length) :: R.map blk).Perm (NL.flatMap Prod.snd)) (k : Heap) (hk : blocksV R k) :
    Triple (apart k (nodesInv sys.plat hA NL ∗ bytesV p bs)) (deallocBy del A p bs.length prev (NL.map Prod.fst))
      (fun nodes h => ∃ NL', (NL'.map Prod.fst = nodes ∧ NodesOk NL' ∧ (R.map blk).Perm (NL'.flatMap Prod.snd)) ∧
        nodesInv sys.plat hA NL' h) := by
  induction NL generalizing R prev k with
  | nil =>
    have := hperm.length_eq
    simp at this
  | cons x NL ih =>
    obtain ⟨nd, Li⟩ := x
    obtain ⟨hc, ha⟩ := hok (nd, Li) (by simp)
    have hok' : NodesOk NL := fun x hx => hok x (List.mem_cons_of_mem _ hx)
    simp only at hc ha
    simp only [List.flatMap_cons] at hperm
    simp only [List.map_cons, deallocBy, Allocator.ownsD, hf]
    by_cases ho : f nd.st p = true
    · simp only [ho, if_true]
      refine Triple.have (p := ∃ Li', Li.Perm ((p, bs.length) :: Li') ∧ (R.map blk).Perm (Li' ++ NL.flatMap Prod.snd)) ?_ ?_
      · rintro h ⟨hhk, h1, g1, hd, rfl, hN, hp⟩
        rcases perm_cons_append hperm with h | ⟨L2', hl2, hrl⟩
        · exact h
        · exfalso
          obtain ⟨h11, h12, hd1, rfl, ⟨k1, k2, hdk, rfl, hI, _⟩, hrest⟩ := hN
          have hpx : (g1.b p).isSome = true := bytesV_isSome hp (by omega)
          have hp0 : p ≠ 0 := by
            -- the block is live in one of the later nodes
            have hmem : (p, bs.length) ∈ NL.flatMap Prod.snd := hl2.mem_iff.2 (List.mem_cons_self)
            clear hrl hl2 hperm ih
            have : ∀ (NL : List (Node A.St × List (Nat × Nat))) h, nodesInv sys.plat hA NL h →
                (p, bs.length) ∈ NL.flatMap Prod.snd → p ≠ 0 := by
              intro NL
              induction NL with
              | nil => intro h _ hm; simp at hm
              | cons y NL ih =>
                rintro h ⟨a1, a2, _, rfl, ⟨b1, b2, _, rfl, hI, _⟩, hr⟩ hm
                rw [List.flatMap_cons, List.mem_append] at hm
                rcases hm with hm | hm
                · exact (hA.live_good hI hm).1.1
                · exact ih _ hr hm
            exact this NL _ hrest hmem
          rcases hA.owns_sound f hf hI hp0 ho with hs | hs
          · have : ((((k1.add k2).add h12)).b p).isSome = true := heap_left_isSome (heap_left_isSome hs)
            exact disj_isSome hd this hpx
          · have : inLive (R.map blk) p := by
              rw [inLive_perm hrl, inLive_append]; exact .inl hs
            exact disj_isSome (Heap.disj_add_left.1 hhk).2 hpx (blocksV_isSome hk this)
      · rintro ⟨Li', hli, hrl⟩
        obtain ⟨R1, R2, hR, hR1, hR2⟩ := split_blocks hrl
        subst hR1
        rw [blocksV_perm hR, blocksV_append] at hk
        obtain ⟨k1, k2, hdk, rfl, hk1, _⟩ := hk
        refine Triple.bind (R := fun st => hA.Inv nd.addr st (R1.map blk) ∗
          ((bytes (nd.addr + A.objSize) 16 ∗ mTok sys.plat nd.addr (nodeSize A)) ∗ nodesInv sys.plat hA NL))
          ?_ (fun st => ?_)
        · refine (apart_frame (F := (bytes (nd.addr + A.objSize) 16 ∗ mTok sys.plat nd.addr (nodeSize A)) ∗ nodesInv sys.plat hA NL)
            (hA.dealloc_local nd.addr nd.st p bs R1 k1 hk1)).pre ?_
          rintro h ⟨hhk, hh⟩
          refine ⟨(Heap.disj_add_right.1 hhk).1, ?_⟩
          have e : (nodesInv sys.plat hA ((nd, Li) :: NL) ∗ bytesV p bs) =
            (hA.Inv nd.addr nd.st Li ∗ (bytesV p bs ∗
              ((bytes (nd.addr + A.objSize) 16 ∗ mTok sys.plat nd.addr (nodeSize A)) ∗ nodesInv sys.plat hA NL))) := by
            rw [nodesInv]; simp only; ac_rfl
          rw [e] at hh
          rw [star_assoc]
          exact star_mono_left (fun _ h => hA.perm hli h) h hh
        · have hcnt : decr nd.cnt = (R1.map blk).length := by
            have := hli.length_eq
            simp only [List.length_cons] at this
            unfold decr; rw [hc]
            have h0 : Li.length ≠ 0 := by omega
            simp only [h0, if_false]; omega
          simp only [hcnt]
          by_cases hz : (R1.map blk).length = 0 ∧ prev = true
          · simp only [hz, and_self, if_true]
            have hR1' : R1 = [] := by
              have := hz.1; simpa using this
            subst hR1'
            refine Triple.bind (R := fun _ => nodesInv sys.plat hA NL) ?_ (fun _ => ?_)
            · have := (hdel nd.addr ha st).frame (nodesInv sys.plat hA NL)
              rw [emp_star] at this
              refine this.pre ?_
              intro h hh
              have e : (hA.Inv nd.addr st (([] : List (Nat × List UInt8)).map blk) ∗
                ((bytes (nd.addr + A.objSize) 16 ∗ mTok sys.plat nd.addr (nodeSize A)) ∗ nodesInv sys.plat hA NL)) =
                ((hA.Inv nd.addr st [] ∗ bytes (nd.addr + A.objSize) 16 ∗ mTok sys.plat nd.addr (nodeSize A)) ∗
                  nodesInv sys.plat hA NL) := by
                simp only [List.map_nil]; ac_rfl
              rw [← e]; exact hh
            · refine Triple.pure _ (fun h hh => ⟨NL, ⟨rfl, hok', ?_⟩, hh⟩)
              simpa using hrl
          · have hz' : ¬ ((R1.map blk).length = 0 ∧ prev = true) := hz
            simp only [hz', if_false]
            refine Triple.pure _ (fun h hh => ⟨(⟨nd.addr, st, (R1.map blk).length⟩, R1.map blk) :: NL, ⟨by simp, ?_, ?_⟩, ?_⟩)
            · intro x hx
              rcases List.mem_cons.1 hx with rfl | hx
              · exact ⟨rfl, ha⟩
              · exact hok' x hx
            · simpa using hrl
            · rw [nodesInv, star_assoc]; exact hh
    · have ho' : f nd.st p = false := by simpa using ho
      simp only [ho', Bool.false_eq_true, if_false]
      refine Triple.have (p := ∃ L2', (NL.flatMap Prod.snd).Perm ((p, bs.length) :: L2') ∧ (R.map blk).Perm (Li ++ L2')) ?_ ?_
      · rintro h ⟨_, h1, h2, hd, rfl, ⟨h11, h12, hd1, rfl, ⟨k1, k2, hdk, rfl, hI, _⟩, hrest⟩, _⟩
        rcases perm_cons_append hperm with ⟨L1', hl1, hrl⟩ | h
        · exfalso
          exact ho (hA.owns_complete f hf hI
            (inLive_self (hl1.mem_iff.2 (List.mem_cons_self (a := (p, bs.length)))) hn))
        · exact h
      · rintro ⟨L2', hl2, hrl⟩
        obtain ⟨R1, R2, hR, hR1, hR2⟩ := split_blocks hrl
        subst hR2
        rw [blocksV_perm hR, blocksV_append] at hk
        obtain ⟨k1, k2, hdk, rfl, _, hk2⟩ := hk
        refine Triple.bind (R := fun rest' h => ∃ NL', (NL'.map Prod.fst = rest' ∧ NodesOk NL' ∧ (R2.map blk).Perm (NL'.flatMap Prod.snd)) ∧
          (nodesInv sys.plat hA NL' ∗
           (hA.Inv nd.addr nd.st Li ∗ bytes (nd.addr + A.objSize) 16 ∗ mTok sys.plat nd.addr (nodeSize A))) h)
          ?_ (fun rest' => ?_)
        · refine (apart_frame (F := hA.Inv nd.addr nd.st Li ∗ bytes (nd.addr + A.objSize) 16 ∗ mTok sys.plat nd.addr (nodeSize A))
            (ih R2 true hok' hl2.symm k2 hk2)).conseq ?_ ?_
          · rintro h ⟨hhk, hh⟩
            refine ⟨(Heap.disj_add_right.1 hhk).2, ?_⟩
            have e : (nodesInv sys.plat hA ((nd, Li) :: NL) ∗ bytesV p bs) =
              ((nodesInv sys.plat hA NL ∗ bytesV p bs) ∗
                (hA.Inv nd.addr nd.st Li ∗ bytes (nd.addr + A.objSize) 16 ∗ mTok sys.plat nd.addr (nodeSize A))) := by
              rw [nodesInv]; simp only; ac_rfl
            rw [← e]; exact hh
          · intro rest' h hh
            rw [star_exists] at hh
            obtain ⟨NL', hh⟩ := hh
            rw [star_and] at hh
            exact ⟨NL', hh⟩
        · refine Triple.pure _ (fun h hh => ?_)
          obtain ⟨NL', ⟨hm, hok2, hp2⟩, hh⟩ := hh
          refine ⟨(nd, Li) :: NL', ⟨by simp [hm], ?_, ?_⟩, ?_⟩
          · intro x hx
            rcases List.mem_cons.1 hx with rfl | hx
            · exact ⟨hc, ha⟩
            · exact hok2 x hx
          · rw [List.flatMap_cons]
            exact hrl.trans (hp2.append_left Li)
          · rw [nodesInv, star_comm]; exact hh

theorem dealloc_go_spec (sys : Sys) (hA : Sound A fA) (f : A.St → Nat → Bool) (hf : A.owns = some f)
    (p : Nat) (bs : List UInt8) (hn : bs.length ≠ 0)
    (NL : List (Node A.St × List (Nat × Nat))) (R : List (Nat × List UInt8)) (prev : Bool)
    (hok : NodesOk NL) (hperm : ((p, bs.length) :: R.map blk).Perm (NL.flatMap Prod.snd)) (k : Heap) (hk : blocksV R k) :
    Triple (apart k (nodesInv sys.plat hA NL ∗ bytesV p bs)) (dealloc sys A p bs.length prev (NL.map Prod.fst))
      (fun nodes h => ∃ NL', (NL'.map Prod.fst = nodes ∧ NodesOk NL' ∧ (R.map blk).Perm (NL'.flatMap Prod.snd)) ∧
        nodesInv sys.plat hA NL' h) := by
  rw [dealloc_by]
  exact deallocBy_spec sys _ hA (alignedDelete_spec sys hA) f hf p bs hn NL R prev hok hperm k hk

theorem routeGo_spec (plat : Plat) (hA : Sound A fA) (c : A.St → Nat → M A.St) (ev : Nat → Ev)
    (hc : ∀ b s L p, Triple (hA.Inv b s L) (c s p) (fun s' => hA.Inv b s' L))
    (p : Nat) (NL : List (Node A.St × List (Nat × Nat))) (hok : NodesOk NL) :
    Triple (nodesInv plat hA NL) (routeGo A c ev p (NL.map Prod.fst))
      (fun nodes h => ∃ NL', (NL'.map Prod.fst = nodes ∧ NodesOk NL' ∧ NL'.flatMap Prod.snd = NL.flatMap Prod.snd) ∧
        nodesInv plat hA NL' h) := by
  induction NL with
  | nil =>
    refine Triple.bind (Triple.event _) (fun _ => ?_)
    exact Triple.pure _ (fun h hh => ⟨[], ⟨rfl, hok, rfl⟩, hh⟩)
  | cons x NL ih =>
    obtain ⟨nd, Li⟩ := x
    obtain ⟨hcn, ha⟩ := hok (nd, Li) (by simp)
    have hok' : NodesOk NL := fun x hx => hok x (List.mem_cons_of_mem _ hx)
    simp only [List.map_cons, routeGo, nodesInv]
    by_cases ho : A.ownsD nd.st p = true
    · simp only [ho, if_true]
      rw [star_assoc]
      refine Triple.bind ((hc nd.addr nd.st Li p).frame _) (fun st => ?_)
      refine Triple.pure _ (fun h hh => ⟨(⟨nd.addr, st, nd.cnt⟩, Li) :: NL, ⟨by simp, ?_, by simp⟩, ?_⟩)
      · intro x hx
        rcases List.mem_cons.1 hx with rfl | hx
        · exact ⟨hcn, ha⟩
        · exact hok' x hx
      · rw [nodesInv, star_assoc]; exact hh
    · simp only [ho, Bool.false_eq_true, if_false]
      rw [star_comm]
      refine Triple.bind ((ih hok').frame _) (fun rest' => ?_)
      refine Triple.pure _ (fun h hh => ?_)
      rw [star_exists] at hh
      obtain ⟨NL', hh⟩ := hh
      rw [star_and] at hh
      obtain ⟨⟨h1, h2, h3⟩, hh⟩ := hh
      refine ⟨(nd, Li) :: NL', ⟨by simp [h1], ?_, by simp [h3]⟩, ?_⟩
      · intro x hx
        rcases List.mem_cons.1 hx with rfl | hx
        · exact ⟨hcn, ha⟩
        · exact h2 x hx
      · rw [nodesInv, star_comm]; exact hh

theorem releaseBy_spec (sys : Sys) (del : Nat → M Unit → M Unit) (hA : Sound A fA) (hdel : Deletes sys del hA)
    (NL : List (Node A.St × List (Nat × Nat))) (hok : NodesOk NL) (hL : NL.flatMap Prod.snd = []) :
    Triple (nodesInv sys.plat hA NL) (releaseBy del A (NL.map Prod.fst)) (fun _ => emp) := by
  induction NL with
  | nil => exact Triple.pure _ (fun _ h => h)
  | cons x NL ih =>
    obtain ⟨nd, Li⟩ := x
    obtain ⟨hcn, ha⟩ := hok (nd, Li) (by simp)
    have hok' : NodesOk NL := fun x hx => hok x (List.mem_cons_of_mem _ hx)
    simp only [List.flatMap_cons, List.append_eq_nil_iff] at hL
    obtain ⟨hL1, hL2⟩ := hL
    subst hL1
    simp only [List.map_cons, releaseBy, nodesInv]
    have := (hdel nd.addr ha nd.st).frame (nodesInv sys.plat hA NL)
    rw [emp_star] at this
    exact Triple.bind this (fun _ => ih hok' hL2)

theorem release_spec (sys : Sys) (hA : Sound A fA)
    (NL : List (Node A.St × List (Nat × Nat))) (hok : NodesOk NL) (hL : NL.flatMap Prod.snd = []) :
    Triple (nodesInv sys.plat hA NL) (release sys A (NL.map Prod.fst)) (fun _ => emp) := by
  rw [release_by]
  exact releaseBy_spec sys _ hA (alignedDelete_spec sys hA) NL hok hL

theorem nodes_live {plat : Plat} {hA : Sound A fA} {NL : List (Node A.St × List (Nat × Nat))} {h : Heap}
    (hN : nodesInv plat hA NL h) {p n} (hm : (p, n) ∈ NL.flatMap Prod.snd) : Good p n ∧ fA n := by
  induction NL generalizing h with
  | nil => simp at hm
  | cons y NL ih =>
    obtain ⟨a1, a2, _, rfl, ⟨b1, b2, _, rfl, hI, _⟩, hr⟩ := hN
    rw [List.flatMap_cons, List.mem_append] at hm
    rcases hm with hm | hm
    · exact hA.live_good hI hm
    · exact ih hr hm

theorem nodes_max {plat : Plat} {hA : Sound A fA} {f m} (hf : A.maxSize = some f) (hfm : ∀ s, f s = some m)
    {NL : List (Node A.St × List (Nat × Nat))} {h : Heap}
    (hN : nodesInv plat hA NL h) {p n} (hm : (p, n) ∈ NL.flatMap Prod.snd) : n ≤ m := by
  induction NL generalizing h with
  | nil => simp at hm
  | cons y NL ih =>
    obtain ⟨a1, a2, _, rfl, ⟨b1, b2, _, rfl, hI, _⟩, hr⟩ := hN
    rw [List.flatMap_cons, List.mem_append] at hm
    rcases hm with hm | hm
    · exact hA.live_max f hf hI hm m (hfm _)
    · exact ih hr hm

theorem nodes_owns_sound {plat : Plat} {hA : Sound A fA} {f} (hf : A.owns = some f)
    {NL : List (Node A.St × List (Nat × Nat))} {h : Heap} {x : Nat}
    (hN : nodesInv plat hA NL h) (hx : x ≠ 0) (ho : (NL.map Prod.fst).any (fun nd => A.ownsD nd.st x) = true) :
    (h.b x).isSome = true ∨ inLive (NL.flatMap Prod.snd) x := by
  induction NL generalizing h with
  | nil => simp at ho
  | cons y NL ih =>
    obtain ⟨a1, a2, _, rfl, ⟨b1, b2, _, rfl, hI, _⟩, hr⟩ := hN
    rw [List.flatMap_cons, inLive_append]
    simp only [List.map_cons, List.any_cons, Bool.or_eq_true] at ho
    rcases ho with ho | ho
    · simp only [Allocator.ownsD, hf] at ho
      rcases hA.owns_sound f hf hI hx ho with h | h
      · exact .inl (heap_left_isSome (heap_left_isSome h))
      · exact .inr (.inl h)
    · rcases ih hr ho with h | h
      · exact .inl (heap_right_isSome h)
      · exact .inr (.inr h)

theorem nodes_owns_complete {plat : Plat} {hA : Sound A fA} {f} (hf : A.owns = some f)
    {NL : List (Node A.St × List (Nat × Nat))} {h : Heap} {x : Nat}
    (hN : nodesInv plat hA NL h) (hl : inLive (NL.flatMap Prod.snd) x) :
    (NL.map Prod.fst).any (fun nd => A.ownsD nd.st x) = true := by
  induction NL generalizing h with
  | nil => exact absurd hl not_inLive_nil
  | cons y NL ih =>
    obtain ⟨a1, a2, _, rfl, ⟨b1, b2, _, rfl, hI, _⟩, hr⟩ := hN
    rw [List.flatMap_cons, inLive_append] at hl
    simp only [List.map_cons, List.any_cons, Bool.or_eq_true]
    rcases hl with hl | hl
    · left
      simp only [Allocator.ownsD, hf]
      exact hA.owns_complete f hf hI hl
    · exact .inr (ih hr hl)

end Cascading

open Cascading

/-- `cascading` satisfies the contract if the sub-allocator does, has `owns`, and its `max_size` (if
any) is safe on a freshly constructed instance. Proof helper, not code. -/
def cascading_sound (sys : Sys) {A : Allocator} {fA : Nat → Prop} (hA : Sound A fA)
    (ho : A.owns.isSome = true) (hmax : MaxTotal A) (hsz : MallocFits sys.plat (nodeSize A)) :
    Sound (cascading sys A) (Cascading.Fits fA) where
  Inv b s L := fun h => (∀ c ∈ L, Cascading.Fits fA c.2) ∧ ∃ NL, (NL.map Prod.fst = s ∧ NodesOk NL ∧
    L.Perm (NL.flatMap Prod.snd)) ∧ (nodesInv sys.plat hA NL ∗ bytes b 16) h
  objAlign := by show 16 % 16 = 0; rfl
  perm := by
    rintro b s L L' h hp ⟨h1, NL, ⟨h2, h3, h4⟩, h5⟩
    exact ⟨fun c hc => h1 c (hp.mem_iff.2 hc), NL, ⟨h2, h3, hp.symm.trans h4⟩, h5⟩
  init_spec := by
    intro b h1 h2 h3
    refine Triple.pure _ (fun h hh => ⟨by simp, [], ⟨rfl, by intro x hx; simp at hx, by simp⟩, ?_⟩)
    rw [nodesInv, emp_star]; exact hh
  alloc_spec := by
    intro b s L n hf hn
    refine Triple.and (fun hL => Triple.exists (fun NL => Triple.and (fun ⟨h1, h2, h3⟩ => ?_)))
    subst h1
    have hL' : ∀ p, ∀ c ∈ (p, n) :: L, Cascading.Fits fA c.2 := by
      intro p c hc
      rcases List.mem_cons.1 hc with rfl | hc
      · exact hf
      · exact hL c hc
    show Triple _ (Cascading.alloc sys A (NL.map Prod.fst) n) _
    unfold Cascading.alloc
    -- after `ensure` there is a front node and nothing else changed
    refine Triple.bind (R := fun s' h => ∃ nd Li NL2, (s' = nd :: NL2.map Prod.fst ∧ NodesOk ((nd, Li) :: NL2) ∧
        L.Perm (((nd, Li) :: NL2).flatMap Prod.snd)) ∧ (nodesInv sys.plat hA ((nd, Li) :: NL2) ∗ bytes b 16) h) ?_ (fun s' => ?_)
    · cases NL with
      | nil =>
        simp only [List.map_nil, ensure]
        have := (newNode_spec sys hA hsz).frame (bytes b 16)
        refine Triple.bind (this.pre (fun h hh => ?_)) (fun nd => ?_)
        · simpa [nodesInv] using hh
        · rw [star_and]
          refine Triple.and (fun hnd => Triple.pure _ (fun h hh => ⟨nd, [], [], ⟨rfl, ?_, ?_⟩, ?_⟩))
          · intro x hx
            have hx' : x = (nd, []) := by simpa using hx
            subst hx'
            exact ⟨hnd.1, hnd.2⟩
          · simpa using h3
          · simpa [nodesInv] using hh
      | cons x NL =>
        simp only [List.map_cons, ensure]
        exact Triple.pure _ (fun h hh => ⟨x.1, x.2, NL, ⟨rfl, h2, h3⟩, hh⟩)
    · refine Triple.exists (fun nd => Triple.exists (fun Li => Triple.exists (fun NL2 => Triple.and (fun ⟨e1, e2, e3⟩ => ?_))))
      subst e1
      have key : Triple (nodesInv sys.plat hA ((nd, Li) :: NL2) ∗ bytes b 16) (allocFront sys A nd (NL2.map Prod.fst) n)
          (fun r h => (r.1 = 0 ∧ ((∀ c ∈ L, Cascading.Fits fA c.2) ∧ ∃ NL, (NL.map Prod.fst = r.2 ∧ NodesOk NL ∧
            L.Perm (NL.flatMap Prod.snd)) ∧ (nodesInv sys.plat hA NL ∗ bytes b 16) h)) ∨
          (Good r.1 n ∧ ((fun h => (∀ c ∈ (r.1, n) :: L, Cascading.Fits fA c.2) ∧ ∃ NL, (NL.map Prod.fst = r.2 ∧ NodesOk NL ∧
            ((r.1, n) :: L).Perm (NL.flatMap Prod.snd)) ∧ (nodesInv sys.plat hA NL ∗ bytes b 16) h) ∗ bytes r.1 n) h)) := by
        refine ((allocFront_spec sys hA hsz nd Li NL2 n e2 hf hn).frame (bytes b 16)).post ?_
        rintro r h ⟨g1, g2, hd, rfl, ⟨NL', ⟨m1, m2⟩, k⟩, hb⟩
        rcases k with ⟨k1, k2, k3⟩ | ⟨k1, k2, k3⟩
        · exact .inl ⟨k1, hL, NL', ⟨m1, m2, by rw [k2]; exact e3⟩, g1, g2, hd, rfl, k3, hb⟩
        · refine .inr ⟨k1, ?_⟩
          have h5 : ((nodesInv sys.plat hA NL' ∗ bytes r.1 n) ∗ bytes b 16) (g1.add g2) := ⟨g1, g2, hd, rfl, k3, hb⟩
          have e : ((nodesInv sys.plat hA NL' ∗ bytes r.1 n) ∗ bytes b 16) =
            ((nodesInv sys.plat hA NL' ∗ bytes b 16) ∗ bytes r.1 n) := by ac_rfl
          rw [e] at h5
          exact star_mono_left (fun _ h => ⟨hL' _, NL', ⟨m1, m2, by rw [k2]; exact e3.cons _⟩, h⟩) _ h5
      simp only
      cases hm : A.maxSize with
      | none => exact key
      | some g =>
        simp only
        obtain ⟨m, hgm⟩ := hmax g hm
        replace hgm := hgm nd.st
        simp only [hgm]
        by_cases hgt : n > m
        · simp only [hgt, if_true]
          exact Triple.pure _ (fun h hh => .inl ⟨rfl, hL, (nd, Li) :: NL2, ⟨rfl, e2, e3⟩, hh⟩)
        · simp only [hgt, if_false]
          exact key
  dealloc_local := by
    intro b s p bs R k hk
    rw [star_and]
    refine apart_and (fun hL => ?_)
    rw [star_exists]
    refine apart_exists (fun NL => ?_)
    rw [star_and]
    refine apart_and (fun ⟨h1, h2, h3⟩ => ?_)
    subst h1
    obtain ⟨f, hf⟩ := Option.isSome_iff_exists.1 ho
    have hn : bs.length ≠ 0 := (hL (p, bs.length) (by simp)).1
    have e : ((nodesInv sys.plat hA NL ∗ bytes b 16) ∗ bytesV p bs) =
      ((nodesInv sys.plat hA NL ∗ bytesV p bs) ∗ bytes b 16) := by ac_rfl
    rw [e]
    refine (apart_frame (dealloc_go_spec sys hA f hf p bs hn NL R false h2 h3 k hk)).post ?_
    rintro s' h ⟨g1, g2, hd, rfl, ⟨NL', ⟨m1, m2, m3⟩, hh⟩, hb⟩
    exact ⟨fun c hc => hL c (List.mem_cons_of_mem _ hc), NL', ⟨m1, m2, m3⟩, g1, g2, hd, rfl, hh, hb⟩
  live_good := by
    rintro b s L h p n ⟨h0, NL, ⟨_, _, h3⟩, g1, g2, hd, rfl, hN, _⟩ hm
    exact ⟨(nodes_live hN (h3.mem_iff.1 hm)).1, h0 _ hm⟩
  live_max := by
    rintro f hf b s L h p n ⟨h0, NL, ⟨_, _, h3⟩, g1, g2, hd, rfl, hN, _⟩ hm m hfm
    obtain ⟨f', hf', rfl⟩ := Option.map_eq_some_iff.1 hf
    obtain ⟨m', hm'⟩ := hmax f' hf'
    have := nodes_max hf' hm' hN (h3.mem_iff.1 hm)
    simp only at hfm
    split at hfm
    · cases hfm
    · rw [hm'] at hfm; cases hfm; exact this
  owns_sound := by
    rintro f hf b s L h x ⟨h0, NL, ⟨rfl, _, h3⟩, g1, g2, hd, rfl, hN, _⟩ hx ho'
    cases hf
    obtain ⟨f, hf⟩ := Option.isSome_iff_exists.1 ho
    rw [inLive_perm h3]
    rcases nodes_owns_sound hf hN hx ho' with h | h
    · exact .inl (heap_left_isSome h)
    · exact .inr h
  owns_complete := by
    rintro f hf b s L h x ⟨h0, NL, ⟨rfl, _, h3⟩, g1, g2, hd, rfl, hN, _⟩ hx
    cases hf
    obtain ⟨f, hf⟩ := Option.isSome_iff_exists.1 ho
    rw [inLive_perm h3] at hx
    exact nodes_owns_complete hf hN hx
  construct_spec := by
    intro c hc b s L p
    obtain ⟨c', hc', rfl⟩ := Option.map_eq_some_iff.1 hc
    refine Triple.and (fun hL => Triple.exists (fun NL => Triple.and (fun ⟨h1, h2, h3⟩ => ?_)))
    subst h1
    refine ((routeGo_spec sys.plat hA c' .ctor (hA.construct_spec c' hc') p NL h2).frame (bytes b 16)).post ?_
    rintro s' h ⟨g1, g2, hd, rfl, ⟨NL', ⟨m1, m2, m3⟩, hh⟩, hb⟩
    exact ⟨hL, NL', ⟨m1, m2, by rw [m3]; exact h3⟩, g1, g2, hd, rfl, hh, hb⟩
  destroy_spec := by
    intro c hc b s L p
    obtain ⟨c', hc', rfl⟩ := Option.map_eq_some_iff.1 hc
    refine Triple.and (fun hL => Triple.exists (fun NL => Triple.and (fun ⟨h1, h2, h3⟩ => ?_)))
    subst h1
    refine ((routeGo_spec sys.plat hA c' .dtor (hA.destroy_spec c' hc') p NL h2).frame (bytes b 16)).post ?_
    rintro s' h ⟨g1, g2, hd, rfl, ⟨NL', ⟨m1, m2, m3⟩, hh⟩, hb⟩
    exact ⟨hL, NL', ⟨m1, m2, by rw [m3]; exact h3⟩, g1, g2, hd, rfl, hh, hb⟩
  fini_spec := by
    intro b s
    refine Triple.and (fun hL => Triple.exists (fun NL => Triple.and (fun ⟨h1, h2, h3⟩ => ?_)))
    subst h1
    have := (release_spec sys hA NL h2 (List.nil_perm.1 h3)).frame (bytes b 16)
    rw [emp_star] at this
    exact this

/-- `shared<Alloc>` with a single handle: the allocator lives in a reference-counted block
(`allocators/shared.h:46-58, 63-76, 90-93, 131-189`). The count and copies of the handle are modelled
in `Verif/Conc/Shared`. -/
def sharedAlloc (sys : Sys) (A : Allocator) : Allocator where
  St := Nat × A.St
  objSize := 16
  init _ := alignedNew sys (nodeSize A) A.init
  alloc s n := do
    let r ← A.alloc s.2 n
    pure (r.1, (s.1, r.2))
  dealloc s p n := do
    let a ← A.dealloc s.2 p n
    pure (s.1, a)
  owns := A.owns.map fun f s p => f s.2 p
  maxSize := A.maxSize.map fun f s => f s.2
  construct := A.construct.map fun c s p => do
    let a ← c s.2 p
    pure (s.1, a)
  destroy := A.destroy.map fun c s p => do
    let a ← c s.2 p
    pure (s.1, a)
  fini s := alignedDelete sys s.1 (A.fini s.2)

/-- `shared` (single handle) satisfies the contract if its part does. Proof helper, not code. -/
def shared_sound (sys : Sys) {A : Allocator} {fA : Nat → Prop} (hA : Sound A fA)
    (hsz : MallocFits sys.plat (nodeSize A)) : Sound (sharedAlloc sys A) fA where
  Inv b s L := fun h => s.1 ≠ 0 ∧ (hA.Inv s.1 s.2 L ∗ bytes (s.1 + A.objSize) 16 ∗ mTok sys.plat s.1 (nodeSize A) ∗ bytes b 16) h
  objAlign := by show 16 % 16 = 0; rfl
  perm := by
    rintro b s L L' h hp ⟨h1, h2⟩
    exact ⟨h1, star_mono_left (fun _ h => hA.perm hp h) h h2⟩
  init_spec := by
    intro b h1 h2 h3
    have h := (newNode_spec sys hA hsz).frame (bytes b 16)
    rw [emp_star] at h
    show Triple (bytes b 16) (alignedNew sys (nodeSize A) A.init) _
    intro w s hf hd he hp
    have := h w s hf hd he hp
    simp only [newNode, M.bind_apply] at this
    cases hw : alignedNew sys (nodeSize A) A.init w with
    | ok a w' =>
      simp only [hw, M.pure_apply] at this
      obtain ⟨⟨h', k1, k2, k3⟩, k4⟩ := this
      rw [star_and] at k3
      refine ⟨⟨h', k1, k2, k3.1.2, ?_⟩, k4⟩
      have e : ((hA.Inv a.1 a.2 [] ∗ bytes (a.1 + A.objSize) 16 ∗ mTok sys.plat a.1 (nodeSize A)) ∗ bytes b 16) =
        (hA.Inv a.1 a.2 [] ∗ bytes (a.1 + A.objSize) 16 ∗ mTok sys.plat a.1 (nodeSize A) ∗ bytes b 16) := by ac_rfl
      rw [← e]; exact k3.2
    | oom w' => simp only [hw] at this; exact this
    | ub => simp only [hw] at this
  alloc_spec := by
    intro b s L n hf hn
    refine Triple.and (fun h0 => ?_)
    refine Triple.bind ((hA.alloc_spec s.1 s.2 L n hf hn).frame _) (fun r => ?_)
    refine Triple.pure _ (fun h hh => ?_)
    obtain ⟨h1, h2, hd, rfl, h3 | h3, h4⟩ := hh
    · exact .inl ⟨h3.1, h0, h1, h2, hd, rfl, h3.2, h4⟩
    · refine .inr ⟨h3.1, ?_⟩
      rw [star_and]
      refine ⟨h0, ?_⟩
      rw [star_assoc, star_comm _ (bytes r.1 n), ← star_assoc]
      exact ⟨h1, h2, hd, rfl, h3.2, h4⟩
  dealloc_local := by
    intro b s p bs R k hk
    rw [star_and]
    refine apart_and (fun h0 => ?_)
    have e : ((hA.Inv s.1 s.2 ((p, bs.length) :: R.map blk) ∗ bytes (s.1 + A.objSize) 16 ∗ mTok sys.plat s.1 (nodeSize A) ∗ bytes b 16) ∗ bytesV p bs) =
        ((hA.Inv s.1 s.2 ((p, bs.length) :: R.map blk) ∗ bytesV p bs) ∗ (bytes (s.1 + A.objSize) 16 ∗ mTok sys.plat s.1 (nodeSize A) ∗ bytes b 16)) := by ac_rfl
    refine apart_eq e ?_
    refine Triple.bind (apart_frame (hA.dealloc_local s.1 s.2 p bs R k hk)) (fun a => ?_)
    exact Triple.pure _ (fun h hh => ⟨h0, hh⟩)
  live_good := by
    rintro b s L h p n ⟨h0, h1, h2, hd, rfl, h3, _⟩ hm
    exact hA.live_good h3 hm
  live_max := by
    rintro f hf b s L h p n ⟨h0, h1, h2, hd, rfl, h3, _⟩ hm m hfm
    have hf1 : A.maxSize.map (fun f (s : Nat × A.St) => f s.2) = some f := hf
    obtain ⟨f', hf', rfl⟩ := Option.map_eq_some_iff.1 hf1
    exact hA.live_max f' hf' h3 hm m hfm
  owns_sound := by
    rintro f hf b s L h x ⟨h0, h1, h2, hd, rfl, h3, h4⟩ hx ho
    have hf1 : A.owns.map (fun f (s : Nat × A.St) p => f s.2 p) = some f := hf
    obtain ⟨f', hf', rfl⟩ := Option.map_eq_some_iff.1 hf1
    rcases hA.owns_sound f' hf' h3 hx ho with h | h
    · exact .inl (heap_left_isSome h)
    · exact .inr h
  owns_complete := by
    rintro f hf b s L h x ⟨h0, h1, h2, hd, rfl, h3, h4⟩ hx
    have hf1 : A.owns.map (fun f (s : Nat × A.St) p => f s.2 p) = some f := hf
    obtain ⟨f', hf', rfl⟩ := Option.map_eq_some_iff.1 hf1
    exact hA.owns_complete f' hf' h3 hx
  construct_spec := by
    intro c hc b s L p
    have hc1 : A.construct.map (fun c (s : Nat × A.St) p => do
      let a ← c s.2 p
      pure (s.1, a)) = some c := hc
    obtain ⟨c', hc', rfl⟩ := Option.map_eq_some_iff.1 hc1
    refine Triple.and (fun h0 => ?_)
    refine Triple.bind ((hA.construct_spec c' hc' s.1 s.2 L p).frame _) (fun a => ?_)
    exact Triple.pure _ (fun h hh => ⟨h0, hh⟩)
  destroy_spec := by
    intro c hc b s L p
    have hc1 : A.destroy.map (fun c (s : Nat × A.St) p => do
      let a ← c s.2 p
      pure (s.1, a)) = some c := hc
    obtain ⟨c', hc', rfl⟩ := Option.map_eq_some_iff.1 hc1
    refine Triple.and (fun h0 => ?_)
    refine Triple.bind ((hA.destroy_spec c' hc' s.1 s.2 L p).frame _) (fun a => ?_)
    exact Triple.pure _ (fun h hh => ⟨h0, hh⟩)
  fini_spec := by
    intro b s
    refine Triple.and (fun h0 => ?_)
    have := (alignedDelete_spec sys hA s.1 h0 s.2).frame (bytes b 16)
    rw [emp_star] at this
    refine this.pre ?_
    intro h hh
    have e : ((hA.Inv s.1 s.2 [] ∗ bytes (s.1 + A.objSize) 16 ∗ mTok sys.plat s.1 (nodeSize A)) ∗ bytes b 16) =
        (hA.Inv s.1 s.2 [] ∗ bytes (s.1 + A.objSize) 16 ∗ mTok sys.plat s.1 (nodeSize A) ∗ bytes b 16) := by ac_rfl
    rw [e]; exact hh

end KTL
